import Verif.Props.Drops
import Verif.Model.Poison
import Verif.Spec.Down
/-!
# Programs that follow no `Weak`
-/

set_option linter.unusedSectionVars false

namespace K
open Prog
variable {S α β γ δ ε : Type}

/-- the program never asks whether a node is freed -/
def Downward : Prog S α → Prop
  | .lock _ k => Downward k
  | .unlock _ k => Downward k
  | .read _ k => ∀ s, Downward (k s)
  | .write _ _ k => Downward k
  | .upgrade _ _ => False
  | .alloc _ k => ∀ n, Downward (k n)
  | _ => True

namespace Downward

theorem bind {p : Prog S α} {f : α → Prog S β} (h : Downward p) (hf : ∀ a, Downward (f a)) : Downward (p >>= f) := by
  induction p with
  | ret a => exact hf a
  | lock m k ih => exact ih h
  | unlock m k ih => exact ih h
  | read m k ih => exact fun s => ih s (h s)
  | write m f k ih => exact ih h
  | upgrade m k ih => exact h.elim
  | alloc s k ih => exact fun n => ih n (h n)
  | panic m => trivial
  | diverge => trivial

theorem peek (n : NodeId) : Downward (Prog.peek n : Prog S S) := fun _ => trivial
theorem poke (n : NodeId) (f : S → S) : Downward (Prog.poke n f) := trivial
theorem expect (o : Option α) (m : String) : Downward (Prog.expect o m : Prog S α) := by cases o <;> trivial

theorem forEach {xs : List γ} {f : γ → Prog S Unit} (h : ∀ x, Downward (f x)) : Downward (Prog.forEach xs f) := by
  induction xs with
  | nil => trivial
  | cons x xs ih => exact (h x).bind fun _ => ih

theorem mapList {xs : List γ} {f : γ → Prog S δ} (h : ∀ x, Downward (f x)) : Downward (Prog.mapList xs f) := by
  induction xs with
  | nil => trivial
  | cons x xs ih => exact (h x).bind fun _ => ih.bind fun _ => trivial

theorem filterList {xs : List γ} {f : γ → Prog S Bool} (h : ∀ x, Downward (f x)) :
    Downward (Prog.filterList xs f) := by
  induction xs with
  | nil => trivial
  | cons x xs ih => exact (h x).bind fun _ => ih.bind fun _ => trivial

theorem tryEach {xs : List γ} {f : γ → Prog S (Except ε Unit)} (h : ∀ x, Downward (f x)) :
    Downward (Prog.tryEach xs f) := by
  induction xs with
  | nil => trivial
  | cons x xs ih =>
    refine (h x).bind fun r => ?_
    cases r with
    | error e => trivial
    | ok u => exact ih

theorem findFirst {xs : List γ} {f : γ → Prog S Bool} (h : ∀ x, Downward (f x)) :
    Downward (Prog.findFirst xs f) := by
  induction xs with
  | nil => trivial
  | cons x xs ih =>
    refine (h x).bind fun b => ?_
    cases b with
    | true => trivial
    | false => exact ih

/-- a step does not depend on which nodes are freed -/
theorem step {p p' : Prog S α} {h h' g : Heap S} (d : Downward p) (m : SameMemory g h)
    (e : step1 p h = some (p', h')) : ∃ g', step1 p g = some (p', g') ∧ SameMemory g' h' ∧ Downward p' := by
  cases p with
  | ret a => cases e
  | panic m => cases e
  | diverge => cases e; exact ⟨g, rfl, m, trivial⟩
  | lock n k =>
    simp only [step1] at e ⊢
    split at e
    · cases e
    · rename_i nh
      cases e
      rw [m.held n] at nh
      refine ⟨g.setHeld n true, by rw [if_neg nh], ⟨m.get, fun x => ?_, m.next⟩, d⟩
      simp only [Heap.setHeld, m.held x]
  | unlock n k =>
    cases e
    refine ⟨_, rfl, ⟨m.get, fun x => ?_, m.next⟩, d⟩
    simp only [Heap.setHeld, m.held x]
  | read n k => cases e; exact ⟨g, by simp only [step1, m.get n], m, d _⟩
  | write n f k =>
    cases e
    refine ⟨_, rfl, ⟨fun x => ?_, m.held, m.next⟩, d⟩
    simp only [Heap.modify, m.get x]
  | upgrade n k => exact d.elim
  | alloc s k =>
    cases e
    refine ⟨g.push s, by simp only [step1, m.next], ⟨fun x => ?_, m.held, ?_⟩, ?_⟩
    · simp only [Heap.push, m.get x, m.next]
    · simp only [Heap.push, m.next]
    · exact d _

/-- the threads could have done the same without the drops -/
theorem drops {a c d : Config S α} (st : DSteps c d) (dw : ∀ p ∈ c.threads, Downward p)
    (m : SameMemory a.heap c.heap) (t : a.threads = c.threads) :
    ∃ b, Steps a b ∧ b.threads = d.threads ∧ SameMemory b.heap d.heap ∧ ∀ p ∈ d.threads, Downward p := by
  induction st with
  | refl => exact ⟨a, .refl _, t, m, dw⟩
  | tail _ s ih =>
    obtain ⟨b, sb, tb, mb, db⟩ := ih
    cases s with
    | free F => exact ⟨b, sb, tb, ⟨mb.get, mb.held, mb.next⟩, db⟩
    | thread s =>
      obtain ⟨i, p, p', h', hi, hs⟩ := s
      obtain ⟨g', e, mg, dp⟩ := (db p (List.mem_of_getElem? hi)).step mb hs
      refine ⟨⟨g', b.threads.set i p'⟩, sb.tail (.mk b i p p' g' (tb ▸ hi) e), by rw [tb], mg, fun q hq => ?_⟩
      rcases List.mem_or_eq_of_mem_set hq with hq | rfl
      · exact db q hq
      · exact dp

/-- the same with poisoned mutexes -/
theorem pdrops {a c d : PConfig S α} (st : PDSteps c d) (dw : ∀ p ∈ c.threads, Downward p)
    (m : SameMemory a.heap c.heap) (t : a.threads = c.threads) (o : a.owner = c.owner) (x : a.poisoned = c.poisoned) :
    ∃ b, PSteps a b ∧ b.threads = d.threads ∧ SameMemory b.heap d.heap ∧ b.owner = d.owner ∧
      b.poisoned = d.poisoned ∧ ∀ p ∈ d.threads, Downward p := by
  induction st with
  | refl => exact ⟨a, .refl _, t, m, o, x, dw⟩
  | tail _ s ih =>
    obtain ⟨b, sb, tb, mb, ob, xb, db⟩ := ih
    cases s with
    | free F => exact ⟨b, sb, tb, ⟨mb.get, mb.held, mb.next⟩, ob, xb, db⟩
    | thread s =>
      cases s with
      | run i p p' h' hi hs ok =>
        obtain ⟨g', e, mg, dp⟩ := (db p (List.mem_of_getElem? hi)).step mb hs
        refine ⟨_, sb.tail (.run b i p p' g' (tb ▸ hi) e (fun n k e => xb ▸ ok n k e)), by rw [tb], mg, by rw [ob], xb,
          fun q hq => ?_⟩
        rcases List.mem_or_eq_of_mem_set hq with hq | rfl
        · exact db q hq
        · exact dp
      | poison i n k hi free bad =>
        refine ⟨_, sb.tail (.poison b i n k (tb ▸ hi) (by rw [← mb.held n]; exact free) (xb ▸ bad)), by rw [tb], mb, ob,
          xb, fun q hq => ?_⟩
        rcases List.mem_or_eq_of_mem_set hq with hq | rfl
        · exact db q hq
        · trivial
      | unwind i m n hi mine =>
        refine ⟨_, sb.tail (.unwind b i m n (tb ▸ hi) (ob ▸ mine)), tb, ⟨mb.get, fun y => ?_, mb.next⟩, by rw [ob],
          by rw [xb], db⟩
        simp only [Heap.setHeld, mb.held y]

/-! ## the calls -/

variable {T : Type} [Scalar T]

theorem setMimicChild (n : NodeId) (x : T) (c : NodeId) : Downward (Node.setMimicChild n x c) := by
  refine fun s => ?_
  show Downward (match s.mimic with | some m => _ | none => _)
  cases s.mimic with
  | some m => trivial
  | none => exact fun _ _ => trivial

theorem setJointPosition (n : NodeId) (x : T) : Downward (Node.setJointPosition n x) := by
  refine fun s => ?_
  show Downward (if s.mimicParent.isSome then _ else _)
  split
  · trivial
  · show Downward (match (s.joint.setJointPosition x).2 with | .error e => _ | .ok () => _)
    cases (s.joint.setJointPosition x).2 with
    | error e => trivial
    | ok u => exact bind (tryEach fun c => setMimicChild n x c) fun _ => trivial

theorem descendants (fuel : Nat) (st : List NodeId) : Downward (K.descendants fuel st : KProg T _) := by
  induction fuel generalizing st with
  | zero => cases st <;> trivial
  | succ k ih =>
    cases st with
    | nil => trivial
    | cons n st => exact (peek n).bind fun s => (ih _).bind fun _ => trivial

theorem fromNodes (ns : List NodeId) : Downward (Chain.fromNodes ns : KProg T _) :=
  bind (filterList fun _ _ => trivial) fun _ => trivial

theorem fmt (c : Chain) (fuel level : Nat) (n : NodeId) : Downward (c.fmtWithIndentLevel fuel level n : KProg T _) := by
  induction fuel generalizing level n with
  | zero => trivial
  | succ k ih =>
    refine bind (p := (if c.nodes.any (fun x => x == n) then _ else _ : KProg T (List String))) ?_ fun _ => ?_
    · split
      · exact (peek n).bind fun _ => trivial
      · trivial
    · refine fun s => ?_
      exact bind (p := Prog.mapList s.children (c.fmtWithIndentLevel k (level + 1))) (mapList fun m => ih _ m) fun _ => trivial

theorem foldTransform (ns : List NodeId) (t : Iso T) : Downward (Chain.foldTransform ns t) := by
  induction ns generalizing t with
  | nil => trivial
  | cons n ns ih => exact (peek n).bind fun s => ih _

theorem call {β : Type} (c : Call T β) (nu : ¬ c.LooksUp) : Downward c.prog := by
  cases c with
  | parent | mimicParent | iterAncestors | fromEnd | fromEndToRoot | updateTransforms | updateVelocities
  | updateLinkTransforms | cloneChain | jacobian | centerOfMass | solve => exact absurd trivial nu
  | newNode j => exact fun _ => trivial
  | setParent n p => trivial
  | removeParent n p => trivial
  | setMimicParent n p m => trivial
  | setLink n l => trivial
  | setOrigin n t => trivial
  | setJointPosition n x => exact setJointPosition n x
  | setJointPositionClamped n x => trivial
  | setJointPositionUnchecked n x => trivial
  | joint n => exact fun _ => trivial
  | jointPosition n => exact fun _ => trivial
  | children n => exact fun _ => trivial
  | link n => exact fun _ => trivial
  | isRoot n => exact fun _ => trivial
  | isEnd n => exact fun _ => trivial
  | origin n => exact fun _ => trivial
  | worldTransform n => exact fun _ => trivial
  | worldVelocity n => exact fun _ => trivial
  | iterDescendants fuel n => exact descendants fuel [n]
  | fromNodes ns => exact fromNodes ns
  | fromRoot fuel n => exact (descendants fuel [n]).bind fun _ => fromNodes _
  | chainSetOrigin c t =>
    show Downward (match c.nodes with | [] => _ | n :: _ => _)
    cases c.nodes <;> trivial
  | chainOrigin c =>
    show Downward (match c.nodes with | [] => _ | n :: _ => _)
    cases c.nodes with
    | nil => trivial
    | cons n _ => exact fun _ => trivial
  | iterJoints c => exact mapList fun n => fun _ => trivial
  | iterLinks c =>
    refine bind (mapList fun n => (peek n).bind fun s => ?_) fun _ => trivial
    show Downward (if s.link.isSome then _ else _)
    split
    · exact fun s => (expect _ _).bind fun _ => trivial
    · trivial
  | find c name => exact findFirst fun n => fun _ => trivial
  | jointPositions c => exact mapList fun n => fun s => (expect _ _).bind fun _ => trivial
  | setJointPositions c xs =>
    show Downward (if xs.length ≠ c.dof then _ else _)
    split
    · trivial
    · exact tryEach fun _ => setJointPosition _ _
  | setJointPositionsClamped c xs => exact forEach fun _ => trivial
  | setJointPositionsUnchecked c xs => exact forEach fun _ => trivial
  | tryNew c =>
    show Downward (match c.nodes.length with | 0 => _ | k + 1 => _)
    cases c.nodes.length with
    | zero => trivial
    | succ k => exact bind (findFirst fun n => fun _ => trivial) fun _ => trivial
  | endTransform c => exact foldTransform _ _
  | display fuel c =>
    show Downward (match c.nodes with | [] => _ | n :: _ => _)
    cases c.nodes with
    | nil => trivial
    | cons n _ => exact (fmt c fuel 0 n).bind fun _ => trivial

theorem client {α : Type} (k : Client T α) (o : k.Only fun c => ¬ c.LooksUp) : Downward k.prog := by
  induction k with
  | done a => trivial
  | call c k ih => exact (call c o.1).bind fun r => ih r (o.2 r)

end Downward
end K
