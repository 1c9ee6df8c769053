import Verif.Model.Funcs
/-!
# `src/ik.rs`
-/

namespace K
open Prog
variable {T : Type} [Scalar T]

/-- `src/ik.rs:30-39` `calc_pose_diff` (a `Vector6` as a list of length 6). -/
def calcPoseDiff (a b : Iso T) : List T :=
  let p := a.trans.sub b.trans
  let w := (b.rot.rotationTo a.rot).scaledAxis
  [p.x, p.y, p.z, w.x, w.y, w.z]

/-- Loop `src/ik.rs:53-58`: keep the entries whose flag is set. -/
def selectFlags {α : Type} : List Bool → List α → List α
  | true :: fs, x :: xs => x :: selectFlags fs xs
  | false :: fs, _ :: xs => selectFlags fs xs
  | _, _ => []

/-- `src/ik.rs:41-60` `calc_pose_diff_with_constraints`. -/
def calcPoseDiffWithConstraints (a b : Iso T) (ops : List Bool) : List T :=
  selectFlags ops (calcPoseDiff a b)

/-- `src/ik.rs:65-82` `Constraints`. -/
structure Constraints where
  positionX : Bool
  positionY : Bool
  positionZ : Bool
  rotationX : Bool
  rotationY : Bool
  rotationZ : Bool
  ignoredJointNames : List String

/-- `src/ik.rs:101-111` `Constraints::default`. -/
def Constraints.default : Constraints := ⟨true, true, true, true, true, true, []⟩

/-- `src/ik.rs:114-123` `define_operational_space`: an array of six flags. -/
def defineOperationalSpace (c : Constraints) : List Bool :=
  [c.positionX, c.positionY, c.positionZ, c.rotationX, c.rotationY, c.rotationZ]

/-- `operational_space.iter().filter(|x| **x).count()` (`src/ik.rs:50,222,298`). -/
def countTrue (ops : List Bool) : Nat := (ops.filter id).length

/-- Body of the loops `src/ik.rs:370-375` and `377-382`: reads consecutive entries of `target_diff`
for set flags, zero otherwise; returns the values and the remaining entries.  Reading past the end
would panic in Rust; `target_diff` always has one entry per set flag. -/
def spreadFlags : List Bool → List T → List T × List T
  | [], xs => ([], xs)
  | true :: fs, x :: xs => let (r, rest) := spreadFlags fs xs; (x :: r, rest)
  | true :: fs, [] => let (r, rest) := spreadFlags fs []; (0 :: r, rest)
  | false :: fs, xs => let (r, rest) := spreadFlags fs xs; (0 :: r, rest)

/-- a list as `Vector3` -/
def toV3 : List T → V3 T
  | x :: y :: z :: _ => ⟨x, y, z⟩
  | _ => V3.zero

/-- `src/ik.rs:361-384` `target_diff_to_len_rot_diff`. -/
def targetDiffToLenRotDiff (targetDiff : List T) (ops : List Bool) : V3 T × V3 T :=
  let (len, rest) := spreadFlags (ops.take 3) targetDiff
  let (rot, _) := spreadFlags (ops.drop 3) rest
  (toV3 len, toV3 rot)

/-- nalgebra's dense solvers, not in `/repo`; arbitrary functions here.
`lu m b` is `m.lu().solve(&b)` (`src/ik.rs:276-278`), `svdSolve m b` is
`m.svd(true, true).solve(&b, EPS).unwrap()` (lines 262-265; cannot fail with both factors computed),
`pinv m` is `m.pseudo_inverse(EPS).unwrap()` (line 246; fails only for negative `EPS`). -/
structure LinAlg (T : Type) where
  lu : Mat T → List T → Option (List T)
  svdSolve : Mat T → List T → List T
  pinv : Mat T → Mat T

/-- `src/ik.rs:144-156` `JacobianIkSolver`, with the linear algebra it calls.  The nullspace function
is user code; it may panic. -/
structure IkSolver (T : Type) where
  allowableTargetDistance : T
  allowableTargetAngle : T
  jacobianMultiplier : T
  numMaxTry : Nat
  nullspaceFunction : Option (List T → Except String (List T))
  la : LinAlg T

/-- `src/ik.rs:171-184` `JacobianIkSolver::new`. -/
def IkSolver.new (la : LinAlg T) (dist angle mult : T) (numMaxTry : Nat) : IkSolver T :=
  ⟨dist, angle, mult, numMaxTry, none, la⟩

/-- `src/ik.rs:476-478` `Default`. -/
def IkSolver.default (la : LinAlg T) : IkSolver T :=
  IkSolver.new la (Scalar.lit 1 1000) (Scalar.lit 5 1000) (Scalar.lit 1 2) 10

/-- `src/ik.rs:198-200` `set_nullspace_function`. -/
def IkSolver.setNullspaceFunction (s : IkSolver T) (f : List T → Except String (List T)) :
    IkSolver T := { s with nullspaceFunction := some f }

/-- `src/ik.rs:203-205` `clear_nullspace_function`. -/
def IkSolver.clearNullspaceFunction (s : IkSolver T) : IkSolver T :=
  { s with nullspaceFunction := none }

/-- `DMatrix::remove_row(i)` on a list of columns: panics when out of range. -/
def removeRow (m : Mat T) (i : Nat) : Except String (Mat T) :=
  if m.all (fun col => i < col.length) then .ok (m.map fun col => col.eraseIdx i)
  else .error "Row index out of range."

/-- Loop `src/ik.rs:229-235`; `i` is the enumeration index, `removed` is `num_removed_rows`. -/
def removeRows : List Bool → Nat → Nat → Mat T → Except String (Mat T)
  | [], _, _, m => .ok m
  | true :: fs, i, removed, m => removeRows fs (i + 1) removed m
  | false :: fs, i, removed, m => do
    let m' ← removeRow m (i - removed)
    removeRows fs (i + 1) (removed + 1) m'

/-- `Vec`/matrix removal used for columns (`remove_column`) and for rows of a vector (`remove_row`):
loop `src/ik.rs:237-239` and `249-251`.  `ji - i` underflow panics (overflow checks on; see
`Model/Release.lean` for builds without). -/
def removeIndices {α : Type} : List Nat → Nat → List α → Except String (List α)
  | [], _, xs => .ok xs
  | ji :: rest, i, xs =>
    if ji < i then .error "attempt to subtract with overflow"
    else if ji - i < xs.length then removeIndices rest (i + 1) (xs.eraseIdx (ji - i))
    else .error "Column index out of range."

/-- Loop `src/ik.rs:256-258`, `266-268`: `d_q = d_q.insert_row(joint_index, 0)`. -/
def insertZeros : List Nat → List T → Except String (List T)
  | [], xs => .ok xs
  | ji :: rest, xs =>
    if ji ≤ xs.length then insertZeros rest (xs.insertIdx ji 0)
    else .error "Row insertion index out of range."

/-- `src/ik.rs:207-213` `add_positions_with_multiplier`: `zip` stops at the shorter list. -/
def addPositionsWithMultiplier (mult : T) (input addValues : List T) : List T :=
  List.zipWith (fun ang add => ang + mult * add) input addValues

/-- element-wise sum of two vectors of equal length -/
def vadd (a b : List T) : List T := List.zipWith (· + ·) a b
/-- element-wise difference -/
def vsub (a b : List T) : List T := List.zipWith (· - ·) a b
/-- `m * v`, `nrows` rows: sum of `column * entry`. -/
def matVec (nrows : Nat) (m : Mat T) (v : List T) : List T :=
  (List.zipWith (fun col x => col.map (· * x)) m v).foldl vadd (List.replicate nrows 0)
/-- `a * b` -/
def matMul (nrows : Nat) (a b : Mat T) : Mat T := b.map (matVec nrows a)
/-- `DMatrix::identity(n, n)` -/
def matOne (n : Nat) : Mat T :=
  (List.range n).map fun c => (List.range n).map fun r => if r = c then 1 else 0
/-- `a - b` -/
def matSub (a b : Mat T) : Mat T := List.zipWith vsub a b

/-- `src/ik.rs:252-255`: `jacobi_inv * err + (I - jacobi_inv * jacobi) * subtask`. -/
def nullspaceStep (available : Nat) (jacobiInv jacobi : Mat T) (err subtask : List T) : List T :=
  vadd (matVec available jacobiInv err)
    (matVec available (matSub (matOne available) (matMul available jacobiInv jacobi)) subtask)

/-- `src/ik.rs:228-282`: the joint positions of the next iterate, from the Jacobian, the error vector
and the current positions.  Outer `Except`: panic; inner: `Err(..)`.  nalgebra's SVD panics on a matrix
without rows (`required = 0`).  A nullspace value of the wrong length is a dimension-mismatch panic of
the matrix product. -/
def nextPositions (s : IkSolver T) (ops : List Bool) (ignored : List Nat) (dof : Nat)
    (jac : Mat T) (err orig : List T) : Except String (Except (KError T) (List T)) := do
  let required := countTrue ops
  let available := dof - ignored.length
  let jac ← removeRows ops 0 0 jac
  let jac ← removeIndices ignored 0 jac
  if available > required then
    if required = 0 then .error "Cannot compute the SVD of an empty matrix."
    else
      match s.nullspaceFunction with
      | some f =>
        let inv := s.la.pinv jac
        let sub ← f orig
        let sub ← removeIndices ignored 0 sub
        if sub.length ≠ available then .error "Matrix multiplication dimensions mismatch."
        else
          let dq := nullspaceStep available inv jac err sub
          let dq ← insertZeros ignored dq
          .ok (.ok (addPositionsWithMultiplier s.jacobianMultiplier orig dq))
      | none =>
        let dq := s.la.svdSolve jac err
        let dq ← insertZeros ignored dq
        .ok (.ok (addPositionsWithMultiplier s.jacobianMultiplier orig dq))
  else
    match s.la.lu jac err with
    | some x => .ok (.ok (addPositionsWithMultiplier s.jacobianMultiplier orig x))
    | none => .ok (.error .inverseMatrix)

/-- `src/ik.rs:215-289` `solve_one_loop_with_constraints`. -/
def solveOneLoop (s : IkSolver T) (arm : Chain) (target : Iso T) (ops : List Bool)
    (ignored : List Nat) : KProg T (Except (KError T) (List T)) := do
  let orig ← arm.jointPositions
  let tn ← arm.endTransform
  let err := calcPoseDiffWithConstraints target tn ops
  let jac ← jacobian arm
  match ← ofExcept (nextPositions s ops ignored arm.dof jac err orig) with
  | .error e => return .error e
  | .ok positions =>
    arm.setJointPositionsClamped positions
    let t ← arm.endTransform
    return .ok (calcPoseDiffWithConstraints target t ops)

/-- The convergence test `src/ik.rs:331-332`. -/
def reached (s : IkSolver T) (len rot : V3 T) : Bool :=
  Scalar.lt len.norm s.allowableTargetDistance && Scalar.lt rot.norm s.allowableTargetAngle

/-- Loop `src/ik.rs:323-345`: `left` tries remain, `last` is `last_target_distance`. -/
def tryLoop (s : IkSolver T) (arm : Chain) (target : Iso T) (ops : List Bool)
    (ignored : List Nat) (orig : List T) :
    Nat → Option (V3 T × V3 T) → KProg T (Except (KError T) Unit)
  | 0, last => do
    match ← arm.setJointPositions orig with
    | .error e => return .error e
    | .ok () =>
      let d ← expect last "called `Option::unwrap()` on a `None` value"
      return .error (.notConverged s.numMaxTry d.1 d.2)
  | left + 1, _ => do
    match ← solveOneLoop s arm target ops ignored with
    | .error e => return .error e
    | .ok diff =>
      let d := targetDiffToLenRotDiff diff ops
      if reached s d.1 d.2 then
        let nonChecked ← arm.jointPositions
        arm.setJointPositionsClamped nonChecked
        return .ok ()
      else tryLoop s arm target ops ignored orig left (some d)

/-- `arm.iter_joints().position(|x| x.name == name)` (`src/ik.rs:310`); the iteration stops at the
first match. -/
def jointIndex (name : String) : List NodeId → KProg T (Option Nat)
  | [] => .ret none
  | n :: ns => do
    if (← Node.joint n).name == name then return some 0
    else return (← jointIndex name ns).map (· + 1)

/-- Loop `src/ik.rs:308-320`. -/
def ignoredIndices (arm : Chain) : List String → KProg T (Except (KError T) (List Nat))
  | [] => .ret (.ok [])
  | name :: names => do
    match ← jointIndex name arm.movableNodes with
    | some i =>
      match ← ignoredIndices arm names with
      | .ok is => return .ok (i :: is)
      | .error e => return .error e
    | none => return .error (.invalidJointName name)

/-- `src/ik.rs:291-346` `solve_with_constraints_internal`.  `arm.dof() - names.len()` underflow panics
(overflow checks on). -/
def solveInternal (s : IkSolver T) (arm : Chain) (target : Iso T) (c : Constraints) :
    KProg T (Except (KError T) Unit) := do
  let ops := defineOperationalSpace c
  let required := countTrue ops
  let orig ← arm.jointPositions
  if arm.dof < c.ignoredJointNames.length then .panic "attempt to subtract with overflow"
  else
    let available := arm.dof - c.ignoredJointNames.length
    if available < required then return .error (.precondition available required)
    else
      match ← ignoredIndices arm c.ignoredJointNames with
      | .error e => return .error e
      | .ok ignored =>
        tryLoop s arm target ops (ignored.mergeSort (fun a b => decide (a ≤ b))) orig s.numMaxTry none

/-- `src/ik.rs:457-469` `solve_with_constraints`. -/
def solveWithConstraints (s : IkSolver T) (arm : Chain) (target : Iso T) (c : Constraints) :
    KProg T (Except (KError T) Unit) := do
  let orig ← arm.jointPositions
  let re ← solveInternal s arm target c
  match re with
  | .error e =>
    match ← arm.setJointPositions orig with
    | .error e' => return .error e'
    | .ok () => return .error e
  | .ok () => return .ok ()

/-- `src/ik.rs:423-425` `solve` (and the trait default, lines 131-133). -/
def solve (s : IkSolver T) (arm : Chain) (target : Iso T) : KProg T (Except (KError T) Unit) :=
  solveWithConstraints s arm target Constraints.default

/-- The closure `src/ik.rs:495-501`: for `i` in `0..dof`, `w[i] * (positions[i] - ref[i])`; indexing
past the end of `positions` panics. -/
def referenceNullspace (ref w positions : List T) : Except String (List T) :=
  if positions.length < ref.length then .error "index out of bounds"
  else .ok (List.zipWith (fun wi d => wi * d) w (List.zipWith (· - ·) positions ref))

/-- `src/ik.rs:488-502` `create_reference_positions_nullspace_function`: `assert_eq!` on lengths. -/
def createReferencePositionsNullspaceFunction (ref w : List T) :
    Except String (List T → Except String (List T)) :=
  if ref.length = w.length then .ok (referenceNullspace ref w)
  else .error "assertion failed: `(left == right)`"

end K
