import Verif.Spec.Loose
import Verif.Lemmas.Run
import Mathlib.Data.List.Basic
/-!
# Every call of the API does the same with looser limits, until a position is refused
-/

set_option linter.unusedSectionVars false

namespace K
open Prog
variable {T : Type} {α β γ δ ε : Type} [Scalar T] {W : Loosening T}

namespace Loosening

theorem heap_modify (h : KHeap T) (n : NodeId) (f f' : NodeImpl T → NodeImpl T)
    (e : ∀ s, f' (W.node s) = W.node (f s)) : W.heap (h.modify n f) = (W.heap h).modify n f' := by
  simp only [Loosening.heap, Heap.modify]
  congr 1
  funext m
  by_cases x : m = n
  · simp [x, e]
  · simp [x]

theorem heap_push (h : KHeap T) (s : NodeImpl T) : W.heap (h.push s) = (W.heap h).push (W.node s) := by
  simp only [Loosening.heap, Heap.push]
  congr 1
  funext m
  by_cases x : m = h.next
  · simp [x]
  · simp [x]

theorem heap_free (h : KHeap T) (F : NodeId → Bool) : W.heap (h.free F) = (W.heap h).free F := rfl

end Loosening

/-- `q` does under the other names what `p` does -/
inductive Loosened (W : Loosening T) (Q : α → β → Prop) : KProg T α → KProg T β → Prop
  | ret {a b} (q : Q a b) : Loosened W Q (.ret a) (.ret b)
  | lock {n k k'} (x : Loosened W Q k k') : Loosened W Q (.lock n k) (.lock n k')
  | unlock {n k k'} (x : Loosened W Q k k') : Loosened W Q (.unlock n k) (.unlock n k')
  | read {n k k'} (x : ∀ s, Loosened W Q (k s) (k' (W.node s))) : Loosened W Q (.read n k) (.read n k')
  | write {n f f' k k'} (hf : ∀ s, f' (W.node s) = W.node (f s)) (x : Loosened W Q k k') :
      Loosened W Q (.write n f k) (.write n f' k')
  | upgrade {n k k'} (x : ∀ b, Loosened W Q (k b) (k' b)) : Loosened W Q (.upgrade n k) (.upgrade n k')
  | alloc {s k k'} (x : ∀ m, Loosened W Q (k m) (k' m)) : Loosened W Q (.alloc s k) (.alloc (W.node s) k')
  | panic (m : String) : Loosened W Q (.panic m) (.panic m)
  | diverge : Loosened W Q .diverge .diverge

/-- outcomes that are the same up to names -/
def LooseOutcome (W : Loosening T) (Q : α → β → Prop) : Res (NodeImpl T) α → Res (NodeImpl T) β → Prop
  | .ok a h, .ok b g => Q a b ∧ g = W.heap h
  | .panic m h, .panic m' g => m' = m ∧ g = W.heap h
  | .blocked n h, .blocked n' g => n' = n ∧ g = W.heap h
  | .diverged, .diverged => True
  | _, _ => False

namespace Loosened
variable {Q : α → β → Prop} {R : γ → δ → Prop}

theorem outcome {p : KProg T α} {q : KProg T β} (s : Loosened W Q p q) (h : KHeap T) :
    LooseOutcome W Q (run p h) (run q (W.heap h)) := by
  induction s generalizing h with
  | ret q => exact ⟨q, rfl⟩
  | @lock n k k' _ ih =>
    show LooseOutcome W Q (if h.held n then _ else _) (if h.held n then _ else _)
    split
    · exact ⟨rfl, rfl⟩
    · exact ih (h.setHeld n true)
  | unlock _ ih => exact ih (h.setHeld _ false)
  | read _ ih => exact ih _ h
  | write hf _ ih =>
    simp only [K.run, ← Loosening.heap_modify _ _ _ _ hf]
    exact ih _
  | upgrade _ ih => exact ih _ h
  | alloc _ ih =>
    simp only [K.run, ← Loosening.heap_push]
    exact ih _ _
  | panic m => exact ⟨rfl, rfl⟩
  | diverge => trivial

theorem bind {p : KProg T α} {q : KProg T β} (s : Loosened W Q p q) {f : α → KProg T γ} {g : β → KProg T δ}
    (hf : ∀ a b, Q a b → Loosened W R (f a) (g b)) : Loosened W R (p >>= f) (q >>= g) := by
  show Loosened W R (p.bind f) (q.bind g)
  induction s with
  | ret q => exact hf _ _ q
  | lock _ ih => exact .lock ih
  | unlock _ ih => exact .unlock ih
  | read _ ih => exact .read fun s => ih s
  | write h _ ih => exact .write h ih
  | upgrade _ ih => exact .upgrade fun b => ih b
  | alloc _ ih => exact .alloc fun m => ih m
  | panic m => exact .panic m
  | diverge => exact .diverge

theorem imp {Q' : α → β → Prop} {p : KProg T α} {q : KProg T β} (s : Loosened W Q p q) (h : ∀ a b, Q a b → Q' a b) :
    Loosened W Q' p q := by
  induction s with
  | ret q => exact .ret (h _ _ q)
  | lock _ ih => exact .lock ih
  | unlock _ ih => exact .unlock ih
  | read _ ih => exact .read fun s => ih s
  | write h _ ih => exact .write h ih
  | upgrade _ ih => exact .upgrade fun b => ih b
  | alloc _ ih => exact .alloc fun m => ih m
  | panic m => exact .panic m
  | diverge => exact .diverge

/-- the value of the other program is a function of the value of this one -/
abbrev To (A : α → β) : α → β → Prop := fun a b => b = A a

/-- the same value -/
abbrev Id : α → α → Prop := fun a b => b = a

/-- sequencing after the same value -/
theorem seq {p q : KProg T α} (s : Loosened W Id p q) {f : α → KProg T γ} {g : α → KProg T δ}
    (hf : ∀ a, Loosened W R (f a) (g a)) : Loosened W R (p >>= f) (q >>= g) :=
  s.bind fun a b e => by subst e; exact hf _

/-- sequencing after values of which the second is a function of the first -/
theorem thn {A : α → β} {p : KProg T α} {q : KProg T β} (s : Loosened W (To A) p q) {f : α → KProg T γ}
    {g : β → KProg T δ} (hf : ∀ a, Loosened W R (f a) (g (A a))) : Loosened W R (p >>= f) (q >>= g) :=
  s.bind fun a b e => by subst e; exact hf a

theorem doLock (n : NodeId) : Loosened W Id (doLock n : KProg T Unit) (doLock n) := .lock (.ret rfl)
theorem doUnlock (n : NodeId) : Loosened W Id (doUnlock n : KProg T Unit) (doUnlock n) := .unlock (.ret rfl)
theorem doUpgrade (n : NodeId) : Loosened W Id (doUpgrade n : KProg T Bool) (doUpgrade n) := .upgrade fun _ => .ret rfl
theorem doRead (n : NodeId) : Loosened W (To W.node) (doRead n : KProg T _) (doRead n) := .read fun _ => .ret rfl
theorem doWrite {n : NodeId} {f f' : NodeImpl T → NodeImpl T} (hf : ∀ s, f' (W.node s) = W.node (f s)) :
    Loosened W Id (doWrite n f) (doWrite n f') := .write hf (.ret rfl)
theorem peek (n : NodeId) : Loosened W (To W.node) (peek n : KProg T _) (peek n) :=
  .lock (.read fun _ => .unlock (.ret rfl))
theorem poke {n : NodeId} {f f' : NodeImpl T → NodeImpl T} (hf : ∀ s, f' (W.node s) = W.node (f s)) :
    Loosened W Id (poke n f) (poke n f') := .lock (.write hf (.unlock (.ret rfl)))
theorem expect {A : α → β} (o : Option α) (m : String) :
    Loosened W (To A) (expect o m : KProg T α) (expect (o.map A) m) := by
  cases o with
  | none => exact .panic m
  | some a => exact .ret rfl
theorem expectSame (o : Option α) (m : String) : Loosened W Id (Prog.expect o m : KProg T α) (Prog.expect o m) := by
  cases o with
  | none => exact .panic m
  | some a => exact .ret rfl
theorem ofExcept (x : Except String α) : Loosened W Id (ofExcept x : KProg T α) (ofExcept x) := by
  cases x with
  | error m => exact .panic m
  | ok a => exact .ret rfl

theorem forEach {f g : γ → KProg T Unit} (h : ∀ x, Loosened W Id (f x) (g x)) (xs : List γ) :
    Loosened W Id (forEach xs f) (forEach xs g) := by
  induction xs with
  | nil => exact .ret rfl
  | cons x xs ih => exact (h x).bind fun _ _ _ => ih

theorem mapListTo {A : α → β} {f : γ → KProg T α} {g : γ → KProg T β}
    (h : ∀ x, Loosened W (To A) (f x) (g x)) (xs : List γ) :
    Loosened W (To (List.map A)) (Prog.mapList xs f) (Prog.mapList xs g) := by
  induction xs with
  | nil => exact .ret rfl
  | cons x xs ih =>
    exact (h x).bind fun a b q => ih.bind fun as bs qs => .ret (by subst q qs; rfl)

theorem mapList {f g : γ → KProg T α}
    (h : ∀ x, Loosened W Id (f x) (g x)) (xs : List γ) : Loosened W Id (Prog.mapList xs f) (Prog.mapList xs g) := by
  induction xs with
  | nil => exact .ret rfl
  | cons x xs ih => exact (h x).seq fun a => ih.seq fun as => .ret rfl

theorem filterList {f g : γ → KProg T Bool}
    (h : ∀ x, Loosened W Id (f x) (g x)) (xs : List γ) : Loosened W Id (filterList xs f) (filterList xs g) := by
  induction xs with
  | nil => exact .ret rfl
  | cons x xs ih => exact (h x).seq fun a => ih.seq fun as => .ret rfl

theorem findFirst {f g : γ → KProg T Bool}
    (h : ∀ x, Loosened W Id (f x) (g x)) (xs : List γ) : Loosened W Id (findFirst xs f) (findFirst xs g) := by
  induction xs with
  | nil => exact .ret rfl
  | cons x xs ih =>
    refine (h x).seq fun a => ?_
    cases a
    · exact ih
    · exact .ret rfl

/-! ### nodes -/

theorem new (j : Joint T) : Loosened W Id (Node.new j) (Node.new (W.toJoint j)) := .alloc fun _ => .ret rfl
theorem joint (n : NodeId) : Loosened W (To W.toJoint) (Node.joint n : KProg T _) (Node.joint n) :=
  (peek n).thn fun _ => .ret rfl
theorem jointPosition (n : NodeId) : Loosened W Id (Node.jointPosition n : KProg T _) (Node.jointPosition n) :=
  (peek n).thn fun _ => .ret rfl
theorem children (n : NodeId) : Loosened W Id (Node.children n : KProg T _) (Node.children n) :=
  (peek n).thn fun _ => .ret rfl
theorem link (n : NodeId) : Loosened W Id (Node.link n : KProg T _) (Node.link n) :=
  (peek n).thn fun _ => .ret rfl
theorem isRoot (n : NodeId) : Loosened W Id (Node.isRoot n : KProg T _) (Node.isRoot n) :=
  (peek n).thn fun _ => .ret rfl
theorem isEnd (n : NodeId) : Loosened W Id (Node.isEnd n : KProg T _) (Node.isEnd n) :=
  (peek n).thn fun _ => .ret rfl
theorem origin (n : NodeId) : Loosened W Id (Node.origin n : KProg T _) (Node.origin n) :=
  (joint n).thn fun _ => .ret rfl
theorem worldTransform (n : NodeId) : Loosened W Id (Node.worldTransform n : KProg T _) (Node.worldTransform n) :=
  (joint n).thn fun _ => .ret rfl
theorem worldVelocity (n : NodeId) : Loosened W Id (Node.worldVelocity n : KProg T _) (Node.worldVelocity n) :=
  (joint n).thn fun _ => .ret rfl

theorem parent (n : NodeId) : Loosened W Id (Node.parent n : KProg T _) (Node.parent n) := by
  refine (doLock n).seq fun _ => (doRead n).thn fun s => ?_
  simp only [Loosening.node]
  cases s.parent with
  | none => exact (doUnlock n).seq fun _ => .ret rfl
  | some w => exact (doUpgrade w).seq fun b => (doUnlock n).seq fun _ => .ret rfl

theorem mimicParent (n : NodeId) : Loosened W Id (Node.mimicParent n : KProg T _) (Node.mimicParent n) := by
  refine (doLock n).seq fun _ => (doRead n).thn fun s => ?_
  simp only [Loosening.node]
  cases s.mimicParent with
  | none => exact (doUnlock n).seq fun _ => .ret rfl
  | some w => exact (doUpgrade w).seq fun b => (doUnlock n).seq fun _ => .ret rfl

theorem setParent (n p : NodeId) : Loosened W Id (Node.setParent n p : KProg T _) (Node.setParent n p) :=
  by
  refine seq (poke ?_) fun _ => ?_
  · exact fun _ => rfl
  exact poke fun _ => rfl
theorem removeParent (n p : NodeId) : Loosened W Id (Node.removeParent n p : KProg T _) (Node.removeParent n p) :=
  by
  refine seq (poke ?_) fun _ => ?_
  · exact fun _ => rfl
  exact poke fun _ => rfl
theorem setMimicParent (n p : NodeId) (m : Mimic T) :
    Loosened W Id (Node.setMimicParent n p m) (Node.setMimicParent n p m) :=
  by
  refine seq (poke ?_) fun _ => ?_
  · exact fun _ => rfl
  refine seq (poke ?_) fun _ => ?_
  · exact fun _ => rfl
  exact poke fun _ => rfl
theorem setLink (n : NodeId) (l : Option (Link T)) :
    Loosened W Id (Node.setLink n l) (Node.setLink n l) := poke fun _ => rfl
theorem setOrigin (n : NodeId) (t : Iso T) : Loosened W Id (Node.setOrigin n t) (Node.setOrigin n t) :=
  poke fun _ => rfl
theorem setJointPositionUnchecked (n : NodeId) (x : T) :
    Loosened W Id (Node.setJointPositionUnchecked n x) (Node.setJointPositionUnchecked n x) := poke fun _ => rfl

theorem parentWorldTransform (n : NodeId) :
    Loosened W Id (Node.parentWorldTransform n : KProg T _) (Node.parentWorldTransform n) :=
  (parent n).seq fun o => by
    cases o with
    | none => exact .ret rfl
    | some p => exact worldTransform p
theorem parentWorldVelocity (n : NodeId) :
    Loosened W Id (Node.parentWorldVelocity n : KProg T _) (Node.parentWorldVelocity n) :=
  (parent n).seq fun o => by
    cases o with
    | none => exact .ret rfl
    | some p => exact worldVelocity p

/-! ### iterators -/

theorem ancestors (fuel : Nat) (o : Option NodeId) :
    Loosened W Id (ancestors fuel o : KProg T _) (ancestors fuel o) := by
  induction fuel generalizing o with
  | zero =>
    cases o with
    | none => exact .ret rfl
    | some n => exact .diverge
  | succ fuel ih =>
    cases o with
    | none => exact .ret rfl
    | some n => exact (parent n).seq fun p => (ih p).seq fun _ => .ret rfl

theorem ancestorsUntil (stop : NodeId) (fuel : Nat) (o : Option NodeId) :
    Loosened W Id (ancestorsUntil stop fuel o : KProg T _) (ancestorsUntil stop fuel o) := by
  induction fuel generalizing o with
  | zero =>
    cases o with
    | none => exact .ret rfl
    | some n => exact .diverge
  | succ fuel ih =>
    cases o with
    | none => exact .ret rfl
    | some n =>
      refine (parent n).seq fun p => ?_
      split
      · exact .ret rfl
      · exact (ih p).seq fun _ => .ret rfl

theorem descendants (fuel : Nat) (st : List NodeId) :
    Loosened W Id (descendants fuel st : KProg T _) (descendants fuel st) := by
  induction fuel generalizing st with
  | zero =>
    cases st with
    | nil => exact .ret rfl
    | cons n st => exact .diverge
  | succ fuel ih =>
    cases st with
    | nil => exact .ret rfl
    | cons n st => exact (children n).seq fun cs => (ih _).seq fun _ => .ret rfl

/-! ### chains -/

theorem fromNodes (ns : List NodeId) : Loosened W Id (Chain.fromNodes ns : KProg T _) (Chain.fromNodes ns) :=
  by
  refine seq (filterList (fun n => ?_) ns) fun _ => .ret rfl
  exact (joint n).thn fun _ => .ret rfl
theorem fromRoot (fuel : Nat) (n : NodeId) :
    Loosened W Id (Chain.fromRoot fuel n : KProg T _) (Chain.fromRoot fuel n) :=
  (descendants fuel [n]).seq fun ns => fromNodes ns
theorem fromEnd (fuel : Nat) (n : NodeId) :
    Loosened W Id (Chain.fromEnd fuel n : KProg T _) (Chain.fromEnd fuel n) :=
  (ancestors fuel (some n)).seq fun _ => fromNodes _
theorem fromEndToRoot (fuel : Nat) (e r : NodeId) :
    Loosened W Id (Chain.fromEndToRoot fuel e r : KProg T _) (Chain.fromEndToRoot fuel e r) :=
  (ancestorsUntil r fuel (some e)).seq fun _ => fromNodes _

variable (c : Chain)

theorem chainSetOrigin (t : Iso T) : Loosened W Id (c.setOrigin t) (c.setOrigin t) := by
  rcases c with ⟨ns, ms, d⟩
  cases ns with
  | nil => exact .panic _
  | cons n ns => exact setOrigin n t
theorem chainOrigin : Loosened W Id (c.origin : KProg T _) c.origin := by
  rcases c with ⟨ns, ms, d⟩
  cases ns with
  | nil => exact .panic _
  | cons n ns => exact origin n
theorem iterJoints : Loosened W (To (List.map W.toJoint)) (c.iterJoints : KProg T _) c.iterJoints :=
  mapListTo joint c.movableNodes

theorem iterLinks : Loosened W Id (c.iterLinks : KProg T _) c.iterLinks := by
  refine seq (mapList (fun n => ?_) c.nodes) fun ls => .ret rfl
  refine (link n).seq fun l => ?_
  cases l with
  | none => exact .ret rfl
  | some l =>
    exact (doLock n).seq fun _ => (doRead n).thn fun s =>
      seq (expectSame s.link _) fun a => (doUnlock n).seq fun _ => .ret rfl

theorem find (name : String) : Loosened W Id (c.find name : KProg T _) (c.find name) := by
  refine findFirst (fun n => ?_) c.nodes
  exact (joint n).thn fun j => .ret rfl

theorem jointPositions : Loosened W Id (c.jointPositions : KProg T _) c.jointPositions := by
  refine mapList (fun n => ?_) c.movableNodes
  refine (doLock n).seq fun _ => (doRead n).thn fun s => ?_
  exact seq (expectSame s.joint.jointPosition _) fun _ => (doUnlock n).seq fun _ => .ret rfl

theorem setJointPositionsUnchecked (xs : List T) :
    Loosened W Id (c.setJointPositionsUnchecked xs) (c.setJointPositionsUnchecked xs) :=
  forEach (fun p : NodeId × T => setJointPositionUnchecked p.1 p.2) _

theorem updateTransform (n : NodeId) :
    Loosened W Id (Chain.updateTransform n : KProg T _) (Chain.updateTransform n) :=
  (parentWorldTransform n).seq fun o => (expectSame o _).seq fun t => (joint n).thn fun j => by
    refine seq (poke ?_) fun _ => .ret rfl
    exact fun _ => rfl

theorem updateTransforms : Loosened W Id (c.updateTransforms : KProg T _) c.updateTransforms :=
  mapList updateTransform c.nodes

theorem updateVelocity (n : NodeId) :
    Loosened W Id (Chain.updateVelocity n : KProg T _) (Chain.updateVelocity n) := by
  refine (parentWorldTransform n).seq fun o => (expectSame o _).seq fun t => (parentWorldVelocity n).seq fun ov =>
    (expectSame ov _).seq fun v => (doLock n).seq fun _ => (doRead n).thn fun s => ?_
  refine seq ?_ fun w => (doUnlock n).seq fun _ => by
    refine seq (poke ?_) fun _ => .ret rfl
    exact fun _ => rfl
  rw [show (W.node s).joint.jointType = s.joint.jointType from rfl]
  cases s.joint.jointType with
  | fixed => exact .ret rfl
  | rotational a =>
    exact (parent n).seq fun o => (expectSame o _).seq fun p => (joint p).thn fun j => (worldTransform n).seq fun o =>
      (expectSame o _).seq fun w => (joint n).thn fun j2 => (expectSame j2.jointVelocity _).seq fun x => .ret rfl
  | linear a =>
    exact (worldTransform n).seq fun o =>
      (expectSame o _).seq fun w => (joint n).thn fun j2 => (expectSame j2.jointVelocity _).seq fun x => .ret rfl

theorem updateVelocities : Loosened W Id (c.updateVelocities : KProg T _) c.updateVelocities :=
  (updateTransforms c).seq fun _ => mapList updateVelocity c.nodes

theorem updateLinkTransforms : Loosened W Id (c.updateLinkTransforms : KProg T _) c.updateLinkTransforms := by
  refine (updateTransforms c).seq fun _ => forEach (fun n => ?_) c.nodes
  refine (parentWorldTransform n).seq fun o => (expectSame o _).seq fun t => poke fun s => rfl

theorem cloneNode (n : NodeId) : Loosened W Id (Chain.cloneNode n : KProg T _) (Chain.cloneNode n) :=
  (doLock n).seq fun _ => (doRead n).thn fun s => (new s.joint).seq fun m => (doUnlock n).seq fun _ =>
    (doLock n).seq fun _ => (doRead n).thn fun s => (setLink m s.link).seq fun _ => (doUnlock n).seq fun _ => .ret rfl

theorem cloneConnect (ns ms : List NodeId) (x : NodeId × NodeId) :
    Loosened W Id (Chain.cloneConnect ns ms x : KProg T _) (Chain.cloneConnect ns ms x) := by
  unfold Chain.cloneConnect
  refine (parent x.1).seq fun o => ?_
  have rest : Loosened W Id (do
        match ← Node.mimicParent x.1 with
        | some m =>
          let i ← Prog.expect (position m ns) "called `Option::unwrap()` on a `None` value"
          let m' ← Prog.expect ms[i]? "index out of bounds"
          Prog.doLock x.1
          let s ← Prog.doRead x.1
          let mimic ← Prog.expect s.mimic "called `Option::unwrap()` on a `None` value"
          Node.setMimicParent x.2 m' mimic
          Prog.doUnlock x.1
        | none => Pure.pure () : KProg T Unit) (do
        match ← Node.mimicParent x.1 with
        | some m =>
          let i ← Prog.expect (position m ns) "called `Option::unwrap()` on a `None` value"
          let m' ← Prog.expect ms[i]? "index out of bounds"
          Prog.doLock x.1
          let s ← Prog.doRead x.1
          let mimic ← Prog.expect s.mimic "called `Option::unwrap()` on a `None` value"
          Node.setMimicParent x.2 m' mimic
          Prog.doUnlock x.1
        | none => Pure.pure () : KProg T Unit) := by
    refine (mimicParent x.1).seq fun o => ?_
    cases o with
    | none => exact .ret rfl
    | some p =>
      exact (expectSame _ _).seq fun i => (expectSame _ _).seq fun m => (doLock x.1).seq fun _ =>
        (doRead x.1).thn fun s => (expectSame s.mimic _).seq fun mi => (setMimicParent x.2 m mi).seq fun _ => doUnlock x.1
  cases o with
  | none => exact rest
  | some p =>
    exact (expectSame _ _).seq fun i => (expectSame _ _).seq fun m => (setParent x.2 m).seq fun _ => rest

theorem clone (fuel : Nat) : Loosened W Id (c.clone fuel : KProg T _) (c.clone fuel) := by
  rcases c with ⟨ns, ms, d⟩
  cases ns with
  | nil => exact .ret rfl
  | cons n ns =>
    refine (isRoot n).seq fun b => ?_
    cases b with
    | false => exact .panic _
    | true =>
      refine (mapList cloneNode (n :: ns)).seq fun nn => (forEach (cloneConnect (n :: ns) nn) _).seq fun _ =>
        (expectSame nn.head? _).seq fun r => (isRoot r).seq fun b => ?_
      cases b with
      | false => exact .panic _
      | true => exact fromRoot fuel r

theorem tryNew : Loosened W Id (c.tryNew : KProg T _) c.tryNew := by
  unfold Chain.tryNew
  cases c.nodes.length with
  | zero => exact .panic _
  | succ k => exact seq (findFirst (fun n => (children n).seq fun cs => .ret rfl) _) fun o => .ret rfl

theorem foldTransform (ns : List NodeId) (t : Iso T) :
    Loosened W Id (Chain.foldTransform ns t) (Chain.foldTransform ns t) := by
  induction ns generalizing t with
  | nil => exact .ret rfl
  | cons n ns ih => exact (joint n).thn fun j => ih _
theorem endTransform : Loosened W Id (c.endTransform : KProg T _) c.endTransform := foldTransform c.nodes Iso.one

theorem fmtWithIndentLevel (fuel level : Nat) (n : NodeId) :
    Loosened W Id (c.fmtWithIndentLevel fuel level n : KProg T _) (c.fmtWithIndentLevel fuel level n) := by
  induction fuel generalizing level n with
  | zero => exact .diverge
  | succ fuel ih =>
    refine seq ?_ fun x => (doLock n).seq fun _ => (doRead n).thn fun s => ?_
    · split
      · exact (peek n).thn fun s => .ret rfl
      · exact .ret rfl
    · exact seq (mapList (ih (level + 1)) s.children) fun _ => (doUnlock n).seq fun _ => .ret rfl

theorem display (fuel : Nat) : Loosened W Id (c.display fuel : KProg T _) (c.display fuel) := by
  rcases c with ⟨ns, ms, d⟩
  cases ns with
  | nil => exact .panic _
  | cons n ns => exact (fmtWithIndentLevel ⟨n :: ns, ms, d⟩ fuel 0 n).seq fun _ => .ret rfl

theorem jacobian : Loosened W Id (K.jacobian c : KProg T _) (K.jacobian c) :=
  by
  refine (endTransform c).seq fun t => (updateTransforms c).seq fun _ => mapList (fun n => ?_) c.movableNodes
  refine (doLock n).seq fun _ => (doRead n).thn fun s => ?_
  refine seq (expectSame s.joint.worldTransform _) fun w => ?_
  exact seq (ofExcept (jacobianColumn t.trans s.joint w)) fun _ => (doUnlock n).seq fun _ => .ret rfl

theorem comLoop (ns : List NodeId) (a : ComAcc T) : Loosened W Id (comLoop ns a) (comLoop ns a) := by
  induction ns generalizing a with
  | nil => exact .ret rfl
  | cons n ns ih =>
    refine (worldTransform n).seq fun o => ?_
    cases o with
    | none => exact ih _
    | some t => exact (link n).seq fun l => ih _

theorem centerOfMass : Loosened W Id (K.centerOfMass c : KProg T _) (K.centerOfMass c) :=
  (updateTransforms c).seq fun _ => (comLoop c.nodes _).seq fun _ => .ret rfl

end Loosened

/-! ### the checked setters -/

/-- `p` ends with a bad result, or `q` does the same with the looser limits -/
def LooseAt (W : Loosening T) (B : α → Prop) (h : KHeap T) (p q : KProg T α) : Prop :=
  (∃ a g, run p h = .ok a g ∧ B a) ∨ run q (W.heap h) = (run p h).loosened W

namespace LooseAt
variable {B : α → Prop} {C : β → Prop} {h : KHeap T}

theorem ofLoosened {p q : KProg T α} (s : Loosened W Loosened.Id p q) : LooseAt W B h p q := by
  right
  have := s.outcome h
  cases e : run p h <;> cases e' : run q (W.heap h) <;> rw [e, e'] at this <;> simp only [LooseOutcome] at this
  · obtain ⟨rfl, rfl⟩ := this; rfl
  · obtain ⟨rfl, rfl⟩ := this; rfl
  · obtain ⟨rfl, rfl⟩ := this; rfl
  · rfl

theorem bind {p q : KProg T α} (s : LooseAt W B h p q) {f f' : α → KProg T β}
    (bad : ∀ a g, B a → ∃ b g', run (f a) g = .ok b g' ∧ C b)
    (next : ∀ a g, LooseAt W C g (f a) (f' a)) : LooseAt W C h (p >>= f) (q >>= f') := by
  rcases s with ⟨a, g, e, x⟩ | e
  · obtain ⟨b, g', e', y⟩ := bad a g x
    exact .inl ⟨b, g', by rw [run_bind, e]; exact e', y⟩
  · cases e' : run p h with
    | ok a g =>
      rw [e'] at e
      rcases next a g with ⟨b, g', e1, y⟩ | e1
      · exact .inl ⟨b, g', by rw [run_bind, e']; exact e1, y⟩
      · right
        rw [run_bind, run_bind, e, e']
        exact e1
    | panic m g => right; rw [run_bind, run_bind, e, e']; rfl
    | blocked n g => right; rw [run_bind, run_bind, e, e']; rfl
    | diverged => right; rw [run_bind, run_bind, e, e']; rfl

/-- after something that no limits matter for -/
theorem seq {p q : KProg T α} (s : Loosened W Loosened.Id p q) {f f' : α → KProg T β}
    (next : ∀ a g, LooseAt W C g (f a) (f' a)) : LooseAt W C h (p >>= f) (q >>= f') :=
  (ofLoosened (B := fun _ => False) s).bind (fun _ _ x => x.elim) next

theorem read {n : NodeId} {f f' : NodeImpl T → KProg T β}
    (next : LooseAt W C h (f (h.get n)) (f' (W.node (h.get n)))) :
    LooseAt W C h (doRead n >>= f) (doRead n >>= f') := next

theorem write {n : NodeId} {u u' : NodeImpl T → NodeImpl T} {p q : KProg T β}
    (hu : u' (W.node (h.get n)) = W.node (u (h.get n))) (next : LooseAt W C (h.modify n u) p q) :
    LooseAt W C h (doWrite n u >>= fun _ => p) (doWrite n u' >>= fun _ => q) := by
  have : W.heap (h.modify n u) = (W.heap h).modify n u' := by
    simp only [Loosening.heap, Heap.modify]
    congr 1
    funext m
    by_cases x : m = n
    · subst x; simp [hu]
    · simp [x]
  have e : run (doWrite n u' >>= fun _ => q) (W.heap h) = run q (W.heap (h.modify n u)) := by rw [this]; rfl
  rcases next with ⟨a, g, e', x⟩ | e'
  · exact .inl ⟨a, g, e', x⟩
  · exact .inr (by rw [e, e']; rfl)

theorem setJointPosition_joint (j : Joint T) (x : T) : Refusal (j.setJointPosition x).2 ∨
    (W.toJoint j).setJointPosition x = (W.toJoint (j.setJointPosition x).1, (j.setJointPosition x).2) := by
  rcases j with ⟨nm, jt, po, v, lim, o, c1, c2⟩
  have wd := W.wider nm lim x
  by_cases m : jt = .fixed
  · subst m; exact .inr rfl
  · by_cases al : Allows lim x
    · right
      have al' := wd al
      have A : ∀ (l : Option (Range T)), Allows l x → (⟨nm, jt, po, v, l, o, c1, c2⟩ : Joint T).setJointPosition x =
          (⟨nm, jt, x, v, l, o, none, none⟩, .ok ()) := by
        intro l hl
        cases l with
        | none => cases jt <;> first | exact absurd rfl m | rfl
        | some r =>
          have : r.isValid x = true := hl
          cases jt <;> first | exact absurd rfl m | simp [Joint.setJointPosition, Joint.isMovable, this]
      rw [A _ al]
      exact A _ al'
    · left
      cases lim with
      | none => exact absurd trivial al
      | some r =>
        have : ¬ r.isValid x = true := al
        cases jt <;> first | exact absurd rfl m | simp [Joint.setJointPosition, Joint.isMovable, this, Refusal]

theorem setMimicChild (n : NodeId) (x : T) (c : NodeId) :
    LooseAt W Refusal h (Node.setMimicChild n x c) (Node.setMimicChild n x c) := by
  refine seq (Loosened.doLock c) fun _ g => ?_
  refine read ?_
  simp only [Loosening.node]
  cases em : (g.get c).mimic with
  | none =>
    exact ofLoosened ((Loosened.joint n).thn fun j => (Loosened.joint c).thn fun j2 =>
      (Loosened.doUnlock c).seq fun _ => .ret rfl)
  | some m =>
    rcases setJointPosition_joint (W := W) (g.get c).joint (m.mimicPosition x) with r | e
    · exact .inl ⟨_, _, rfl, r⟩
    · refine write ?_ ?_
      · simp only [Loosening.node, e]
      · rw [e]
        exact ofLoosened ((Loosened.doUnlock c).seq fun _ => .ret rfl)

theorem tryEach {f : γ → KProg T (Except (KError T) Unit)}
    (hf : ∀ x g, LooseAt W Refusal g (f x) (f x)) (xs : List γ) (h : KHeap T) :
    LooseAt W Refusal h (tryEach xs f) (tryEach xs f) := by
  induction xs generalizing h with
  | nil => exact ofLoosened (.ret rfl)
  | cons x xs ih =>
    refine (hf x h).bind (fun a g b => ?_) fun a g => ?_
    · cases a with
      | ok => exact b.elim
      | error e => exact ⟨_, _, rfl, b⟩
    · cases a with
      | error e => exact ofLoosened (.ret rfl)
      | ok => exact ih g

theorem setJointPosition (n : NodeId) (x : T) (h : KHeap T) :
    LooseAt W Refusal h (Node.setJointPosition n x) (Node.setJointPosition n x) := by
  refine seq (Loosened.doLock n) fun _ g => ?_
  refine read ?_
  by_cases hp : (g.get n).mimicParent.isSome = true
  · have hp' : (W.node (g.get n)).mimicParent.isSome = true := hp
    rw [if_pos hp, if_pos hp']
    exact ofLoosened ((Loosened.doUnlock n).seq fun _ => .ret rfl)
  · have hp' : ¬(W.node (g.get n)).mimicParent.isSome = true := hp
    rw [if_neg hp, if_neg hp']
    rcases setJointPosition_joint (W := W) (g.get n).joint x with r | e
    · left
      cases er : ((g.get n).joint.setJointPosition x).2 with
      | ok => rw [er] at r; exact r.elim
      | error e => exact ⟨_, _, rfl, by rw [er] at r; exact r⟩
    · refine write ?_ ?_
      · simp only [Loosening.node, e]
      · simp only [Loosening.node, e]
        cases ((g.get n).joint.setJointPosition x).2 with
        | error e => exact ofLoosened ((Loosened.doUnlock n).seq fun _ => .ret rfl)
        | ok =>
          refine (tryEach (fun c g => setMimicChild n x c) _ _).bind (fun a g b => ⟨_, _, rfl, b⟩) fun r g => ?_
          exact ofLoosened ((Loosened.doUnlock n).seq fun _ => .ret rfl)

theorem setJointPositions (c : Chain) (xs : List T) (h : KHeap T) :
    LooseAt W Refusal h (c.setJointPositions xs) (c.setJointPositions xs) := by
  unfold Chain.setJointPositions
  split
  · exact ofLoosened (.ret rfl)
  · exact tryEach (fun (p : NodeId × T) g => setJointPosition p.1 p.2 g) _ h

end LooseAt

/-! ### calls and clients -/

theorem LooseAt.outcome {p q : KProg T α} {B : α → Prop} {h : KHeap T} (s : LooseAt W B h p q) :
    (∃ a g, run p h = .ok a g ∧ B a) ∨ LooseOutcome W Loosened.Id (run p h) (run q (W.heap h)) := by
  rcases s with s | s
  · exact .inl s
  · right
    rw [s]
    cases run p h <;> simp [Res.loosened, LooseOutcome]

/-- a call is refused, or it does the same with the looser limits -/
theorem Loosened.call {β : Type} (c : Call T β) (u : c.Unclamped) (h : KHeap T) :
    (∃ a g, run c.prog h = .ok a g ∧ c.Refused a) ∨
      LooseOutcome W (Loosened.To (c.looseAnswer W)) (run c.prog h) (run (c.loosened W).prog (W.heap h)) := by
  cases c with
  | newNode j => exact .inr ((Loosened.new j).outcome h)
  | setParent n p => exact .inr ((Loosened.setParent n p).outcome h)
  | removeParent n p => exact .inr ((Loosened.removeParent n p).outcome h)
  | setMimicParent n p m => exact .inr ((Loosened.setMimicParent n p m).outcome h)
  | setLink n l => exact .inr ((Loosened.setLink n l).outcome h)
  | setOrigin n t => exact .inr ((Loosened.setOrigin n t).outcome h)
  | setJointPosition n x => exact LooseAt.outcome (LooseAt.setJointPosition n x h)
  | setJointPositionClamped n x => exact u.elim
  | setJointPositionUnchecked n x => exact .inr ((Loosened.setJointPositionUnchecked n x).outcome h)
  | joint n => exact .inr ((Loosened.joint n).outcome h)
  | jointPosition n => exact .inr ((Loosened.jointPosition n).outcome h)
  | parent n => exact .inr ((Loosened.parent n).outcome h)
  | mimicParent n => exact .inr ((Loosened.mimicParent n).outcome h)
  | children n => exact .inr ((Loosened.children n).outcome h)
  | link n => exact .inr ((Loosened.link n).outcome h)
  | isRoot n => exact .inr ((Loosened.isRoot n).outcome h)
  | isEnd n => exact .inr ((Loosened.isEnd n).outcome h)
  | origin n => exact .inr ((Loosened.origin n).outcome h)
  | worldTransform n => exact .inr ((Loosened.worldTransform n).outcome h)
  | worldVelocity n => exact .inr ((Loosened.worldVelocity n).outcome h)
  | iterAncestors fuel n => exact .inr ((Loosened.ancestors fuel (some n)).outcome h)
  | iterDescendants fuel n => exact .inr ((Loosened.descendants fuel [n]).outcome h)
  | fromNodes ns => exact .inr ((Loosened.fromNodes ns).outcome h)
  | fromRoot fuel n => exact .inr ((Loosened.fromRoot fuel n).outcome h)
  | fromEnd fuel n => exact .inr ((Loosened.fromEnd fuel n).outcome h)
  | fromEndToRoot fuel e r => exact .inr ((Loosened.fromEndToRoot fuel e r).outcome h)
  | chainSetOrigin c t => exact .inr ((Loosened.chainSetOrigin c t).outcome h)
  | chainOrigin c => exact .inr ((Loosened.chainOrigin c).outcome h)
  | iterJoints c => exact .inr ((Loosened.iterJoints c).outcome h)
  | iterLinks c => exact .inr ((Loosened.iterLinks c).outcome h)
  | find c name => exact .inr ((Loosened.find c name).outcome h)
  | jointPositions c => exact .inr ((Loosened.jointPositions c).outcome h)
  | setJointPositions c xs => exact LooseAt.outcome (LooseAt.setJointPositions c xs h)
  | setJointPositionsClamped c xs => exact u.elim
  | setJointPositionsUnchecked c xs => exact .inr ((Loosened.setJointPositionsUnchecked c xs).outcome h)
  | updateTransforms c => exact .inr ((Loosened.updateTransforms c).outcome h)
  | updateVelocities c => exact .inr ((Loosened.updateVelocities c).outcome h)
  | updateLinkTransforms c => exact .inr ((Loosened.updateLinkTransforms c).outcome h)
  | cloneChain fuel c => exact .inr ((Loosened.clone c fuel).outcome h)
  | tryNew c => exact .inr ((Loosened.tryNew c).outcome h)
  | endTransform c => exact .inr ((Loosened.endTransform c).outcome h)
  | display fuel c => exact .inr ((Loosened.display c fuel).outcome h)
  | jacobian c => exact .inr ((Loosened.jacobian c).outcome h)
  | centerOfMass c => exact .inr ((Loosened.centerOfMass c).outcome h)
  | solve s c target cs => exact u.elim

theorem Loosened.client {p q : Client T (Option α)} (same : p.Loosens W q) (h : KHeap T) :
    (∃ g, run p.prog h = .ok none g) ∨ run q.prog (W.heap h) = (run p.prog h).loosened W := by
  induction same generalizing h with
  | done a => exact .inr rfl
  | call c k k' u stops _ ih =>
    show (∃ g, run (c.prog >>= fun r => (k r).prog) h = _) ∨
      run ((c.loosened W).prog >>= fun r => (k' r).prog) (W.heap h) =
        (run (c.prog >>= fun r => (k r).prog) h).loosened W
    rw [run_bind, run_bind]
    rcases Loosened.call (W := W) c u h with ⟨a, g, e, x⟩ | x
    · refine .inl ⟨g, ?_⟩
      rw [e]
      show run (k a).prog g = _
      rw [stops a x]; rfl
    · cases e : run c.prog h <;> cases e' : run (c.loosened W).prog (W.heap h) <;> rw [e, e'] at x <;>
        simp only [LooseOutcome] at x
      · rename_i a g b g'
        obtain ⟨rfl, rfl⟩ := x
        by_cases rf : c.Refused a
        · refine .inl ⟨g, ?_⟩
          show run (k a).prog g = _
          rw [stops a rf]; rfl
        · exact ih a rf g
      · obtain ⟨rfl, rfl⟩ := x; exact .inr rfl
      · obtain ⟨rfl, rfl⟩ := x; exact .inr rfl
      · exact .inr rfl

end K
