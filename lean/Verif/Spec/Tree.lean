import Verif.Model.Chain
/-!
# Specification: trees of nodes
-/

namespace K
variable {T : Type}

/-- what `parent()` can see: the parent, if it is recorded and its allocation is alive -/
def liveParent (h : KHeap T) (n : NodeId) : Option NodeId :=
  match (h.get n).parent with
  | some p => if h.dead p then none else some p
  | none => none

/-- what `mimic_parent()` can see -/
def liveMimic (h : KHeap T) (n : NodeId) : Option NodeId :=
  match (h.get n).mimicParent with
  | some p => if h.dead p then none else some p
  | none => none

/-- The nodes form a forest: `children` and `parent` agree, children are listed once, only allocated
nodes are linked, and parents come before children in some ranking (so there is no cycle). -/
structure Forest (h : KHeap T) : Prop where
  agree : ∀ p c, c ∈ (h.get p).children ↔ (h.get c).parent = some p
  once : ∀ p, (h.get p).children.Nodup
  bound : ∀ p c, c ∈ (h.get p).children → c < h.next ∧ p < h.next
  acyclic : ∃ rank : NodeId → Nat, ∀ p c, (h.get c).parent = some p → rank p < rank c

/-- `n` is `r` or below `r` -/
inductive Below (h : KHeap T) (r : NodeId) : NodeId → Prop
  | refl : Below h r r
  | step {p n : NodeId} (b : Below h r p) (c : n ∈ (h.get p).children) : Below h r n

/-- `ns` lists `n`, its parent, its grandparent, ... up to a node whose `parent()` is `None` -/
inductive Lineage (h : KHeap T) : NodeId → List NodeId → Prop
  | root {n : NodeId} (e : liveParent h n = none) : Lineage h n [n]
  | step {n p : NodeId} {ps : List NodeId} (e : liveParent h n = some p) (l : Lineage h p ps) :
      Lineage h n (n :: ps)

/-- every element of the list except those satisfying `top` has its tree parent earlier in the list -/
def ParentsFirst (h : KHeap T) (top : NodeId → Prop) (ns : List NodeId) : Prop :=
  ∀ pre n post, ns = pre ++ n :: post → top n ∨ ∃ p ∈ pre, (h.get n).parent = some p

end K
