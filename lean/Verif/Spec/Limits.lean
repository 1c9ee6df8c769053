import Verif.Model.Node
/-!
# Specification vocabulary: limits
-/

namespace K
variable {T : Type} [Scalar T]

/-- `x` satisfies the limits `l` (both ends inclusive; no limits: everything is allowed). -/
def Within (l : Option (Range T)) (x : T) : Prop :=
  ∀ r, l = some r → Scalar.le r.min x = true ∧ Scalar.le x r.max = true

/-- every limited joint of the heap is within its limits -/
def AllWithin (h : KHeap T) : Prop := ∀ n, Within (h.get n).joint.limits (h.get n).joint.position

/-- every limit pair of the heap is a proper interval, as `Range::new` guarantees
(`src/joint/range.rs:40`) -/
def ProperLimits (h : KHeap T) : Prop :=
  ∀ n r, (h.get n).joint.limits = some r → Scalar.le r.min r.max = true

end K
