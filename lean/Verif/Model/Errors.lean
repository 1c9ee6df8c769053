import Verif.Model.Joint
/-!
# `src/errors.rs`: the texts
-/

namespace K
variable {T : Type}

/-- `Display` of `Error` (`src/errors.rs:22-80`).  `num` prints a number after its conversion to `f64`
(`src/joint/joint.rs:113-117`), `vec` a vector of three numbers (`src/ik.rs:341-345`); both are code of other
crates. -/
def KError.text (num : T → String) (vec : V3 T → String) : KError T → String
  | .outOfLimit name position maxLimit minLimit =>
    "joint: " ++ name ++ " is out of limit: " ++ num position ++ ", limit = " ++ num maxLimit ++ " <=> " ++
      num minLimit
  | .setToFixed name => "joint " ++ name ++ " is fixed joint but the position is set"
  | .sizeMismatch input required => "size mismatch input = " ++ input.repr ++ ", required = " ++ required.repr
  | .mimicError from_ to => "mimic error from " ++ from_ ++ " to " ++ to
  | .notConverged numTried p r =>
    "ik solve not converged tried " ++ numTried.repr ++ " times, position diff = " ++ vec p ++
      ", rotation diff = " ++ vec r
  | .inverseMatrix => "inverse matrix error"
  | .precondition dof necessary =>
    "ik precondition error: input Dof=" ++ dof.repr ++ ", must be greater than " ++ necessary.repr
  | .invalidJointName name => "There is no valid joint named " ++ name

end K
