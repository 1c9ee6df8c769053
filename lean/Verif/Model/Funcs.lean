import Verif.Model.Chain
/-!
# `src/funcs.rs`
-/

namespace K
open Prog
variable {T : Type} [Scalar T]

/-- A matrix as its list of columns (`DMatrix<T>`; column `c`, row `r` is `m[c][r]`). -/
abbrev Mat (T : Type) := List (List T)

/-- One column, closure `src/funcs.rs:18-33`, for a joint whose cached world transform is `ti`. -/
def jacobianColumn (pn : V3 T) (j : Joint T) (ti : Iso T) : Except String (List T) :=
  match j.jointType with
  | .linear axis =>
    let pi := ti.rot.rotate axis
    .ok [pi.x, pi.y, pi.z, 0, 0, 0]
  | .rotational axis =>
    let pi := ti.trans
    let ai := ti.rot.rotate axis
    let dpi := ai.cross (pn.sub pi)
    .ok [dpi.x, dpi.y, dpi.z, ai.x, ai.y, ai.z]
  | .fixed => .error "impossible, bug of jacobian"

/-- `src/funcs.rs:8-38` `jacobian`.  `DMatrix::from_fn(6, dof, |r, c| jacobi_vec[c][r])` is the list
of columns (`dof` is the number of movable nodes for every chain, `src/chain.rs:181`, the fields of
`Chain` being private). -/
def jacobian (arm : Chain) : KProg T (Mat T) := do
  let tn ← arm.endTransform
  let _ ← arm.updateTransforms
  let pn := tn.trans
  mapList arm.movableNodes fun n => do
    doLock n
    let s ← doRead n
    let ti ← expect s.joint.worldTransform "called `Option::unwrap()` on a `None` value"
    let col ← ofExcept (jacobianColumn pn s.joint ti)
    doUnlock n
    return col

/-- State of the loop of `center_of_mass`: `total_mass`, `com`. -/
structure ComAcc (T : Type) where
  totalMass : T
  com : V3 T

/-- Body of the loop, `src/funcs.rs:67-73`, for a node with cached transform and link. -/
def comAdd (acc : ComAcc T) (trans : Option (Iso T)) (link : Option (Link T)) : ComAcc T :=
  match trans, link with
  | some t, some l =>
    let inertiaTrans := t.mulTrans l.inertial.origin.trans
    { com := acc.com.add (inertiaTrans.trans.scale l.inertial.mass)
      totalMass := acc.totalMass + l.inertial.mass }
  | _, _ => acc

/-- Loop `src/funcs.rs:66-74`.  The link guard of line 68 is held while the sums are updated. -/
def comLoop : List NodeId → ComAcc T → KProg T (ComAcc T)
  | [], acc => .ret acc
  | n :: ns, acc => do
    let trans ← Node.worldTransform n
    match trans with
    | some t =>
      let l ← Node.link n
      comLoop ns (comAdd acc (some t) l)
    | none => comLoop ns acc

/-- `src/funcs.rs:58-76` `center_of_mass`. -/
def centerOfMass (chain : Chain) : KProg T (V3 T) := do
  let _ ← chain.updateTransforms
  let acc ← comLoop chain.nodes ⟨0, V3.zero⟩
  return acc.com.unscale acc.totalMass

end K
