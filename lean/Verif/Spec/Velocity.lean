import Verif.Spec.Answers
/-!
# Clients and velocities

What calls tell about velocities when no joint ever moves with a velocity, and the clients that make new nodes
only from joints without one.
-/

namespace K
variable {T : Type} [Scalar T]

/-- no velocity is stored, or the velocity zero -/
def Joint.Still (j : Joint T) : Prop := ∀ v, j.worldVelocity = some v → v = Velocity.zero

/-- what a call tells about velocities, when the nodes of `h` existed before -/
def StillAnswer (h : KHeap T) : {β : Type} → Call T β → β → Prop
  | _, .joint _, j => j.Still
  | _, .worldVelocity _, o => ∀ v, o = some v → v = Velocity.zero
  | _, .iterJoints _, js => ∀ j ∈ js, j.Still
  | _, .updateVelocities c, vs => vs = c.nodes.map (fun _ => Velocity.zero) ∧
      ∀ n ∈ c.nodes, n < h.next → (h.get n).joint.jointType = .fixed
  | _, _, _ => True

/-- a new node is made from a joint without velocity -/
def Call.Still {β : Type} : Call T β → Prop
  | .newNode j => j.Still
  | _ => True

/-- Whatever the calls of the client return, as long as they tell of no velocity, it makes new nodes only from
joints without velocity. -/
def Client.Still (h : KHeap T) {α : Type} : Client T α → Prop
  | .done _ => True
  | .call c k => c.Still ∧ ∀ r, StillAnswer h c r → (k r).Still h

end K
