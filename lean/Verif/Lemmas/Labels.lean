import Verif.Spec.Labels
import Verif.Lemmas.Run
import Mathlib.Data.List.Basic
/-!
# Every call of the API does the same under other names
-/

set_option linter.unusedSectionVars false

namespace K
open Prog
variable {T : Type} {α β γ δ ε : Type} {L : Labels}

namespace Labels

theorem heap_modify (h : KHeap T) (n : NodeId) (f f' : NodeImpl T → NodeImpl T)
    (e : ∀ s, f' (L.node s) = L.node (f s)) : L.heap (h.modify n f) = (L.heap h).modify n f' := by
  simp only [Labels.heap, Heap.modify]
  congr 1
  funext m
  by_cases x : m = n
  · simp [x, e]
  · simp [x]

theorem heap_push (h : KHeap T) (s : NodeImpl T) : L.heap (h.push s) = (L.heap h).push (L.node s) := by
  simp only [Labels.heap, Heap.push]
  congr 1
  funext m
  by_cases x : m = h.next
  · simp [x]
  · simp [x]

theorem heap_free (h : KHeap T) (F : NodeId → Bool) : L.heap (h.free F) = (L.heap h).free F := rfl

end Labels

/-- `q` does under the other names what `p` does -/
inductive Alias (L : Labels) (Q : α → β → Prop) : KProg T α → KProg T β → Prop
  | ret {a b} (q : Q a b) : Alias L Q (.ret a) (.ret b)
  | lock {n k k'} (x : Alias L Q k k') : Alias L Q (.lock n k) (.lock n k')
  | unlock {n k k'} (x : Alias L Q k k') : Alias L Q (.unlock n k) (.unlock n k')
  | read {n k k'} (x : ∀ s, Alias L Q (k s) (k' (L.node s))) : Alias L Q (.read n k) (.read n k')
  | write {n f f' k k'} (hf : ∀ s, f' (L.node s) = L.node (f s)) (x : Alias L Q k k') :
      Alias L Q (.write n f k) (.write n f' k')
  | upgrade {n k k'} (x : ∀ b, Alias L Q (k b) (k' b)) : Alias L Q (.upgrade n k) (.upgrade n k')
  | alloc {s k k'} (x : ∀ m, Alias L Q (k m) (k' m)) : Alias L Q (.alloc s k) (.alloc (L.node s) k')
  | panic (m : String) : Alias L Q (.panic m) (.panic m)
  | diverge : Alias L Q .diverge .diverge

/-- outcomes that are the same up to names -/
def AliasOutcome (L : Labels) (Q : α → β → Prop) : Res (NodeImpl T) α → Res (NodeImpl T) β → Prop
  | .ok a h, .ok b g => Q a b ∧ g = L.heap h
  | .panic m h, .panic m' g => m' = m ∧ g = L.heap h
  | .blocked n h, .blocked n' g => n' = n ∧ g = L.heap h
  | .diverged, .diverged => True
  | _, _ => False

namespace Alias
variable {Q : α → β → Prop} {R : γ → δ → Prop}

theorem outcome {p : KProg T α} {q : KProg T β} (s : Alias L Q p q) (h : KHeap T) :
    AliasOutcome L Q (run p h) (run q (L.heap h)) := by
  induction s generalizing h with
  | ret q => exact ⟨q, rfl⟩
  | @lock n k k' _ ih =>
    show AliasOutcome L Q (if h.held n then _ else _) (if h.held n then _ else _)
    split
    · exact ⟨rfl, rfl⟩
    · exact ih (h.setHeld n true)
  | unlock _ ih => exact ih (h.setHeld _ false)
  | read _ ih => exact ih _ h
  | write hf _ ih =>
    simp only [K.run, ← Labels.heap_modify _ _ _ _ hf]
    exact ih _
  | upgrade _ ih => exact ih _ h
  | alloc _ ih =>
    simp only [K.run, ← Labels.heap_push]
    exact ih _ _
  | panic m => exact ⟨rfl, rfl⟩
  | diverge => trivial

theorem step {p p' : KProg T α} {q : KProg T β} (s : Alias L Q p q) (h h' : KHeap T)
    (e : step1 p h = some (p', h')) :
    ∃ q', step1 q (L.heap h) = some (q', L.heap h') ∧ Alias L Q p' q' := by
  cases s with
  | ret q => cases e
  | @lock n k k' x =>
    simp only [step1] at e
    split at e
    · cases e
    · cases e; rename_i y
      refine ⟨k', ?_, x⟩
      show (if h.held n then none else _) = _
      rw [if_neg y]; rfl
  | unlock x => cases e; exact ⟨_, rfl, x⟩
  | read x => cases e; exact ⟨_, rfl, x _⟩
  | write hf x =>
    cases e
    exact ⟨_, by simp only [step1, ← Labels.heap_modify _ _ _ _ hf], x⟩
  | upgrade x => cases e; exact ⟨_, rfl, x _⟩
  | alloc x =>
    cases e
    exact ⟨_, by simp only [step1, ← Labels.heap_push]; rfl, x _⟩
  | panic m => cases e
  | diverge => cases e; exact ⟨_, rfl, .diverge⟩

theorem back {p : KProg T α} {q q' : KProg T β} (s : Alias L Q p q) (h : KHeap T) {g : KHeap T}
    (e : step1 q (L.heap h) = some (q', g)) :
    ∃ p' h', step1 p h = some (p', h') ∧ g = L.heap h' ∧ Alias L Q p' q' := by
  cases s with
  | ret q => cases e
  | @lock n k k' x =>
    by_cases y : h.held n = true
    · have : (if h.held n then none else some (k', (L.heap h).setHeld n true)) = some (q', g) := e
      rw [if_pos y] at this; cases this
    · have : (if h.held n then none else some (k', (L.heap h).setHeld n true)) = some (q', g) := e
      rw [if_neg y] at this; cases this
      exact ⟨k, h.setHeld n true, by show (if h.held n then none else _) = _; rw [if_neg y], rfl, x⟩
  | unlock x => cases e; exact ⟨_, _, rfl, rfl, x⟩
  | read x => cases e; exact ⟨_, _, rfl, rfl, x _⟩
  | write hf x => cases e; exact ⟨_, _, rfl, (Labels.heap_modify _ _ _ _ hf).symm, x⟩
  | upgrade x => cases e; exact ⟨_, _, rfl, rfl, x _⟩
  | alloc x => cases e; exact ⟨_, _, rfl, (Labels.heap_push _ _).symm, x _⟩
  | panic m => cases e
  | diverge => cases e; exact ⟨_, _, rfl, rfl, .diverge⟩

theorem bind {p : KProg T α} {q : KProg T β} (s : Alias L Q p q) {f : α → KProg T γ} {g : β → KProg T δ}
    (hf : ∀ a b, Q a b → Alias L R (f a) (g b)) : Alias L R (p >>= f) (q >>= g) := by
  show Alias L R (p.bind f) (q.bind g)
  induction s with
  | ret q => exact hf _ _ q
  | lock _ ih => exact .lock ih
  | unlock _ ih => exact .unlock ih
  | read _ ih => exact .read fun s => ih s
  | write h _ ih => exact .write h ih
  | upgrade _ ih => exact .upgrade fun b => ih b
  | alloc _ ih => exact .alloc fun m => ih m
  | panic m => exact .panic m
  | diverge => exact .diverge

theorem imp {Q' : α → β → Prop} {p : KProg T α} {q : KProg T β} (s : Alias L Q p q) (h : ∀ a b, Q a b → Q' a b) :
    Alias L Q' p q := by
  induction s with
  | ret q => exact .ret (h _ _ q)
  | lock _ ih => exact .lock ih
  | unlock _ ih => exact .unlock ih
  | read _ ih => exact .read fun s => ih s
  | write h _ ih => exact .write h ih
  | upgrade _ ih => exact .upgrade fun b => ih b
  | alloc _ ih => exact .alloc fun m => ih m
  | panic m => exact .panic m
  | diverge => exact .diverge

/-- the value of the other program is a function of the value of this one -/
abbrev To (A : α → β) : α → β → Prop := fun a b => b = A a

/-- the same value -/
abbrev Id : α → α → Prop := fun a b => b = a

/-- sequencing after the same value -/
theorem seq {p q : KProg T α} (s : Alias L Id p q) {f : α → KProg T γ} {g : α → KProg T δ}
    (hf : ∀ a, Alias L R (f a) (g a)) : Alias L R (p >>= f) (q >>= g) :=
  s.bind fun a b e => by subst e; exact hf _

/-- sequencing after values of which the second is a function of the first -/
theorem thn {A : α → β} {p : KProg T α} {q : KProg T β} (s : Alias L (To A) p q) {f : α → KProg T γ}
    {g : β → KProg T δ} (hf : ∀ a, Alias L R (f a) (g (A a))) : Alias L R (p >>= f) (q >>= g) :=
  s.bind fun a b e => by subst e; exact hf a

theorem doLock (n : NodeId) : Alias L Id (doLock n : KProg T Unit) (doLock n) := .lock (.ret rfl)
theorem doUnlock (n : NodeId) : Alias L Id (doUnlock n : KProg T Unit) (doUnlock n) := .unlock (.ret rfl)
theorem doUpgrade (n : NodeId) : Alias L Id (doUpgrade n : KProg T Bool) (doUpgrade n) := .upgrade fun _ => .ret rfl
theorem doRead (n : NodeId) : Alias L (To L.node) (doRead n : KProg T _) (doRead n) := .read fun _ => .ret rfl
theorem doWrite {n : NodeId} {f f' : NodeImpl T → NodeImpl T} (hf : ∀ s, f' (L.node s) = L.node (f s)) :
    Alias L Id (doWrite n f) (doWrite n f') := .write hf (.ret rfl)
theorem peek (n : NodeId) : Alias L (To L.node) (peek n : KProg T _) (peek n) :=
  .lock (.read fun _ => .unlock (.ret rfl))
theorem poke {n : NodeId} {f f' : NodeImpl T → NodeImpl T} (hf : ∀ s, f' (L.node s) = L.node (f s)) :
    Alias L Id (poke n f) (poke n f') := .lock (.write hf (.unlock (.ret rfl)))
theorem expect {A : α → β} (o : Option α) (m : String) :
    Alias L (To A) (expect o m : KProg T α) (expect (o.map A) m) := by
  cases o with
  | none => exact .panic m
  | some a => exact .ret rfl
theorem expectSame (o : Option α) (m : String) : Alias L Id (Prog.expect o m : KProg T α) (Prog.expect o m) := by
  cases o with
  | none => exact .panic m
  | some a => exact .ret rfl
theorem ofExcept (x : Except String α) : Alias L Id (ofExcept x : KProg T α) (ofExcept x) := by
  cases x with
  | error m => exact .panic m
  | ok a => exact .ret rfl

theorem forEach {f g : γ → KProg T Unit} (h : ∀ x, Alias L Id (f x) (g x)) (xs : List γ) :
    Alias L Id (forEach xs f) (forEach xs g) := by
  induction xs with
  | nil => exact .ret rfl
  | cons x xs ih => exact (h x).bind fun _ _ _ => ih

theorem mapListTo {A : α → β} {f : γ → KProg T α} {g : γ → KProg T β}
    (h : ∀ x, Alias L (To A) (f x) (g x)) (xs : List γ) :
    Alias L (To (List.map A)) (Prog.mapList xs f) (Prog.mapList xs g) := by
  induction xs with
  | nil => exact .ret rfl
  | cons x xs ih =>
    exact (h x).bind fun a b q => ih.bind fun as bs qs => .ret (by subst q qs; rfl)

theorem mapList {f g : γ → KProg T α}
    (h : ∀ x, Alias L Id (f x) (g x)) (xs : List γ) : Alias L Id (Prog.mapList xs f) (Prog.mapList xs g) := by
  induction xs with
  | nil => exact .ret rfl
  | cons x xs ih => exact (h x).seq fun a => ih.seq fun as => .ret rfl

theorem mapListAny {f g : γ → KProg T α}
    (h : ∀ x, Alias L (fun _ _ => True) (f x) (g x)) (xs : List γ) :
    Alias L (fun _ _ => True) (Prog.mapList xs f) (Prog.mapList xs g) := by
  induction xs with
  | nil => exact .ret trivial
  | cons x xs ih => exact (h x).bind fun a b q => ih.bind fun as bs qs => .ret trivial

theorem filterList {f g : γ → KProg T Bool}
    (h : ∀ x, Alias L Id (f x) (g x)) (xs : List γ) : Alias L Id (filterList xs f) (filterList xs g) := by
  induction xs with
  | nil => exact .ret rfl
  | cons x xs ih => exact (h x).seq fun a => ih.seq fun as => .ret rfl

theorem findFirst {f g : γ → KProg T Bool}
    (h : ∀ x, Alias L Id (f x) (g x)) (xs : List γ) : Alias L Id (findFirst xs f) (findFirst xs g) := by
  induction xs with
  | nil => exact .ret rfl
  | cons x xs ih =>
    refine (h x).seq fun a => ?_
    cases a
    · exact ih
    · exact .ret rfl

theorem tryEach {f g : γ → KProg T (Except (KError T) Unit)} (h : ∀ x, Alias L (To L.result) (f x) (g x))
    (xs : List γ) : Alias L (To L.result) (tryEach xs f) (tryEach xs g) := by
  induction xs with
  | nil => exact .ret rfl
  | cons x xs ih =>
    refine (h x).thn fun a => ?_
    cases a with
    | error e => exact .ret rfl
    | ok => exact ih

/-! ### nodes -/

variable [Scalar T]

theorem setJointPosition_joint (j : Joint T) (x : T) : (L.toJoint j).setJointPosition x =
    (L.toJoint (j.setJointPosition x).1, L.result (j.setJointPosition x).2) := by
  rcases j with ⟨nm, jt, po, v, lim, o, c1, c2⟩
  cases jt <;> cases lim <;> simp only [Joint.setJointPosition, Labels.toJoint, Joint.isMovable] <;> first | rfl | skip
  all_goals
    rename_i r
    by_cases hv : (!r.isValid x) = true
    · simp only [if_pos hv]; rfl
    · simp only [if_neg hv]; rfl

theorem clamped_joint (j : Joint T) (x : T) :
    (L.toJoint j).setJointPositionClamped x = L.toJoint (j.setJointPositionClamped x) := by
  rcases j with ⟨nm, jt, po, v, lim, o, c1, c2⟩
  cases jt <;> rfl

theorem new (j : Joint T) : Alias L Id (Node.new j) (Node.new (L.toJoint j)) := .alloc fun _ => .ret rfl
theorem joint (n : NodeId) : Alias L (To L.toJoint) (Node.joint n : KProg T _) (Node.joint n) :=
  (peek n).thn fun _ => .ret rfl
theorem jointPosition (n : NodeId) : Alias L Id (Node.jointPosition n : KProg T _) (Node.jointPosition n) :=
  (peek n).thn fun _ => .ret rfl
theorem children (n : NodeId) : Alias L Id (Node.children n : KProg T _) (Node.children n) :=
  (peek n).thn fun _ => .ret rfl
theorem link (n : NodeId) : Alias L (To (Option.map L.toLink)) (Node.link n : KProg T _) (Node.link n) :=
  (peek n).thn fun _ => .ret rfl
theorem isRoot (n : NodeId) : Alias L Id (Node.isRoot n : KProg T _) (Node.isRoot n) :=
  (peek n).thn fun _ => .ret rfl
theorem isEnd (n : NodeId) : Alias L Id (Node.isEnd n : KProg T _) (Node.isEnd n) :=
  (peek n).thn fun _ => .ret rfl
theorem origin (n : NodeId) : Alias L Id (Node.origin n : KProg T _) (Node.origin n) :=
  (joint n).thn fun _ => .ret rfl
theorem worldTransform (n : NodeId) : Alias L Id (Node.worldTransform n : KProg T _) (Node.worldTransform n) :=
  (joint n).thn fun _ => .ret rfl
theorem worldVelocity (n : NodeId) : Alias L Id (Node.worldVelocity n : KProg T _) (Node.worldVelocity n) :=
  (joint n).thn fun _ => .ret rfl

theorem parent (n : NodeId) : Alias L Id (Node.parent n : KProg T _) (Node.parent n) := by
  refine (doLock n).seq fun _ => (doRead n).thn fun s => ?_
  simp only [Labels.node]
  cases s.parent with
  | none => exact (doUnlock n).seq fun _ => .ret rfl
  | some w => exact (doUpgrade w).seq fun b => (doUnlock n).seq fun _ => .ret rfl

theorem mimicParent (n : NodeId) : Alias L Id (Node.mimicParent n : KProg T _) (Node.mimicParent n) := by
  refine (doLock n).seq fun _ => (doRead n).thn fun s => ?_
  simp only [Labels.node]
  cases s.mimicParent with
  | none => exact (doUnlock n).seq fun _ => .ret rfl
  | some w => exact (doUpgrade w).seq fun b => (doUnlock n).seq fun _ => .ret rfl

theorem setParent (n p : NodeId) : Alias L Id (Node.setParent n p : KProg T _) (Node.setParent n p) :=
  by
  refine seq (poke ?_) fun _ => ?_
  · exact fun _ => rfl
  exact poke fun _ => rfl
theorem removeParent (n p : NodeId) : Alias L Id (Node.removeParent n p : KProg T _) (Node.removeParent n p) :=
  by
  refine seq (poke ?_) fun _ => ?_
  · exact fun _ => rfl
  exact poke fun _ => rfl
theorem setMimicParent (n p : NodeId) (m : Mimic T) :
    Alias L Id (Node.setMimicParent n p m) (Node.setMimicParent n p m) :=
  by
  refine seq (poke ?_) fun _ => ?_
  · exact fun _ => rfl
  refine seq (poke ?_) fun _ => ?_
  · exact fun _ => rfl
  exact poke fun _ => rfl
theorem setLink (n : NodeId) (l : Option (Link T)) :
    Alias L Id (Node.setLink n l) (Node.setLink n (l.map L.toLink)) := poke fun _ => rfl
theorem setOrigin (n : NodeId) (t : Iso T) : Alias L Id (Node.setOrigin n t) (Node.setOrigin n t) :=
  poke fun _ => rfl
theorem setJointPositionClamped (n : NodeId) (x : T) :
    Alias L Id (Node.setJointPositionClamped n x) (Node.setJointPositionClamped n x) :=
  poke fun s => by simp only [Labels.node, clamped_joint]
theorem setJointPositionUnchecked (n : NodeId) (x : T) :
    Alias L Id (Node.setJointPositionUnchecked n x) (Node.setJointPositionUnchecked n x) := poke fun _ => rfl

theorem setMimicChild (n : NodeId) (x : T) (c : NodeId) :
    Alias L (To L.result) (Node.setMimicChild n x c) (Node.setMimicChild n x c) := by
  refine (doLock c).seq fun _ => (doRead c).thn fun s => ?_
  simp only [Labels.node]
  cases s.mimic with
  | none => exact (joint n).thn fun j => (joint c).thn fun j2 => (doUnlock c).seq fun _ => .ret rfl
  | some m =>
    refine seq (doWrite fun s => ?_) fun _ => (doUnlock c).seq fun _ => .ret ?_
    · simp only [Labels.node, setJointPosition_joint]
    · simp only [To, setJointPosition_joint]

theorem setJointPosition (n : NodeId) (x : T) :
    Alias L (To L.result) (Node.setJointPosition n x) (Node.setJointPosition n x) := by
  refine (doLock n).seq fun _ => (doRead n).thn fun s => ?_
  by_cases hp : s.mimicParent.isSome = true
  · have hp' : (L.node s).mimicParent.isSome = true := hp
    rw [if_pos hp, if_pos hp']
    exact (doUnlock n).seq fun _ => .ret rfl
  · have hp' : ¬(L.node s).mimicParent.isSome = true := hp
    rw [if_neg hp, if_neg hp']
    refine seq (doWrite fun s => ?_) fun _ => ?_
    · simp only [Labels.node, setJointPosition_joint]
    · simp only [Labels.node, setJointPosition_joint]
      cases (s.joint.setJointPosition x).2 with
      | error e => exact (doUnlock n).seq fun _ => .ret rfl
      | ok => exact (tryEach (setMimicChild n x) s.mimicChildren).thn fun r => (doUnlock n).seq fun _ => .ret rfl

theorem parentWorldTransform (n : NodeId) :
    Alias L Id (Node.parentWorldTransform n : KProg T _) (Node.parentWorldTransform n) :=
  (parent n).seq fun o => by
    cases o with
    | none => exact .ret rfl
    | some p => exact worldTransform p
theorem parentWorldVelocity (n : NodeId) :
    Alias L Id (Node.parentWorldVelocity n : KProg T _) (Node.parentWorldVelocity n) :=
  (parent n).seq fun o => by
    cases o with
    | none => exact .ret rfl
    | some p => exact worldVelocity p

/-! ### iterators -/

theorem ancestors (fuel : Nat) (o : Option NodeId) :
    Alias L Id (ancestors fuel o : KProg T _) (ancestors fuel o) := by
  induction fuel generalizing o with
  | zero =>
    cases o with
    | none => exact .ret rfl
    | some n => exact .diverge
  | succ fuel ih =>
    cases o with
    | none => exact .ret rfl
    | some n => exact (parent n).seq fun p => (ih p).seq fun _ => .ret rfl

theorem ancestorsUntil (stop : NodeId) (fuel : Nat) (o : Option NodeId) :
    Alias L Id (ancestorsUntil stop fuel o : KProg T _) (ancestorsUntil stop fuel o) := by
  induction fuel generalizing o with
  | zero =>
    cases o with
    | none => exact .ret rfl
    | some n => exact .diverge
  | succ fuel ih =>
    cases o with
    | none => exact .ret rfl
    | some n =>
      refine (parent n).seq fun p => ?_
      split
      · exact .ret rfl
      · exact (ih p).seq fun _ => .ret rfl

theorem descendants (fuel : Nat) (st : List NodeId) :
    Alias L Id (descendants fuel st : KProg T _) (descendants fuel st) := by
  induction fuel generalizing st with
  | zero =>
    cases st with
    | nil => exact .ret rfl
    | cons n st => exact .diverge
  | succ fuel ih =>
    cases st with
    | nil => exact .ret rfl
    | cons n st => exact (children n).seq fun cs => (ih _).seq fun _ => .ret rfl

/-! ### chains -/

theorem fromNodes (ns : List NodeId) : Alias L Id (Chain.fromNodes ns : KProg T _) (Chain.fromNodes ns) :=
  by
  refine seq (filterList (fun n => ?_) ns) fun _ => .ret rfl
  exact (joint n).thn fun _ => .ret rfl
theorem fromRoot (fuel : Nat) (n : NodeId) :
    Alias L Id (Chain.fromRoot fuel n : KProg T _) (Chain.fromRoot fuel n) :=
  (descendants fuel [n]).seq fun ns => fromNodes ns
theorem fromEnd (fuel : Nat) (n : NodeId) :
    Alias L Id (Chain.fromEnd fuel n : KProg T _) (Chain.fromEnd fuel n) :=
  (ancestors fuel (some n)).seq fun _ => fromNodes _
theorem fromEndToRoot (fuel : Nat) (e r : NodeId) :
    Alias L Id (Chain.fromEndToRoot fuel e r : KProg T _) (Chain.fromEndToRoot fuel e r) :=
  (ancestorsUntil r fuel (some e)).seq fun _ => fromNodes _

variable (c : Chain)

theorem chainSetOrigin (t : Iso T) : Alias L Id (c.setOrigin t) (c.setOrigin t) := by
  rcases c with ⟨ns, ms, d⟩
  cases ns with
  | nil => exact .panic _
  | cons n ns => exact setOrigin n t
theorem chainOrigin : Alias L Id (c.origin : KProg T _) c.origin := by
  rcases c with ⟨ns, ms, d⟩
  cases ns with
  | nil => exact .panic _
  | cons n ns => exact origin n
theorem iterJoints : Alias L (To (List.map L.toJoint)) (c.iterJoints : KProg T _) c.iterJoints :=
  mapListTo joint c.movableNodes

theorem iterLinks : Alias L (To (List.map L.toLink)) (c.iterLinks : KProg T _) c.iterLinks := by
  refine thn (A := List.map (Option.map L.toLink)) (mapListTo (fun n => ?_) c.nodes) fun ls => ?_
  · refine (link n).thn fun l => ?_
    cases l with
    | none => exact .ret rfl
    | some l =>
      exact (doLock n).seq fun _ => (doRead n).thn fun s =>
        (expect (A := L.toLink) s.link _).thn fun a => (doUnlock n).seq fun _ => .ret rfl
  · refine .ret ?_
    show List.filterMap id _ = List.map L.toLink _
    rw [List.filterMap_map, List.map_filterMap]
    exact List.filterMap_congr fun o _ => by cases o <;> rfl

/-- other names are equal exactly when the names are -/
theorem name_eq (a b : String) : (L.joint a == L.joint b) = (a == b) := by
  by_cases e : a = b
  · subst e; simp
  · have : L.joint a ≠ L.joint b := fun x => e (L.inj x)
    simp [e, this]

theorem find (name : String) : Alias L Id (c.find name : KProg T _) (c.find (L.joint name)) := by
  refine findFirst (fun n => ?_) c.nodes
  exact (joint n).thn fun j => .ret (name_eq j.name name)

theorem jointPositions : Alias L Id (c.jointPositions : KProg T _) c.jointPositions := by
  refine mapList (fun n => ?_) c.movableNodes
  refine (doLock n).seq fun _ => (doRead n).thn fun s => ?_
  exact seq (expectSame s.joint.jointPosition _) fun _ => (doUnlock n).seq fun _ => .ret rfl

theorem setJointPositions (xs : List T) :
    Alias L (To L.result) (c.setJointPositions xs) (c.setJointPositions xs) := by
  unfold Chain.setJointPositions
  split
  · exact .ret rfl
  · exact tryEach (fun p : NodeId × T => setJointPosition p.1 p.2) _

theorem setJointPositionsClamped (xs : List T) :
    Alias L Id (c.setJointPositionsClamped xs) (c.setJointPositionsClamped xs) :=
  forEach (fun p : NodeId × T => setJointPositionClamped p.1 p.2) _
theorem setJointPositionsUnchecked (xs : List T) :
    Alias L Id (c.setJointPositionsUnchecked xs) (c.setJointPositionsUnchecked xs) :=
  forEach (fun p : NodeId × T => setJointPositionUnchecked p.1 p.2) _

theorem updateTransform (n : NodeId) :
    Alias L Id (Chain.updateTransform n : KProg T _) (Chain.updateTransform n) :=
  (parentWorldTransform n).seq fun o => (expectSame o _).seq fun t => (joint n).thn fun j => by
    refine seq (poke ?_) fun _ => .ret rfl
    exact fun _ => rfl

theorem updateTransforms : Alias L Id (c.updateTransforms : KProg T _) c.updateTransforms :=
  mapList updateTransform c.nodes

theorem updateVelocity (n : NodeId) :
    Alias L Id (Chain.updateVelocity n : KProg T _) (Chain.updateVelocity n) := by
  refine (parentWorldTransform n).seq fun o => (expectSame o _).seq fun t => (parentWorldVelocity n).seq fun ov =>
    (expectSame ov _).seq fun v => (doLock n).seq fun _ => (doRead n).thn fun s => ?_
  refine seq ?_ fun w => (doUnlock n).seq fun _ => by
    refine seq (poke ?_) fun _ => .ret rfl
    exact fun _ => rfl
  rw [show (L.node s).joint.jointType = s.joint.jointType from rfl]
  cases s.joint.jointType with
  | fixed => exact .ret rfl
  | rotational a =>
    exact (parent n).seq fun o => (expectSame o _).seq fun p => (joint p).thn fun j => (worldTransform n).seq fun o =>
      (expectSame o _).seq fun w => (joint n).thn fun j2 => (expectSame j2.jointVelocity _).seq fun x => .ret rfl
  | linear a =>
    exact (worldTransform n).seq fun o =>
      (expectSame o _).seq fun w => (joint n).thn fun j2 => (expectSame j2.jointVelocity _).seq fun x => .ret rfl

theorem updateVelocities : Alias L Id (c.updateVelocities : KProg T _) c.updateVelocities :=
  (updateTransforms c).seq fun _ => mapList updateVelocity c.nodes

theorem placeLink (t : Iso T) (l : Link T) : Chain.placeLink t (L.toLink l) = L.toLink (Chain.placeLink t l) := by
  simp only [Chain.placeLink, Labels.toLink, List.map_map]
  rfl

theorem updateLinkTransforms : Alias L Id (c.updateLinkTransforms : KProg T _) c.updateLinkTransforms := by
  refine (updateTransforms c).seq fun _ => forEach (fun n => ?_) c.nodes
  refine (parentWorldTransform n).seq fun o => (expectSame o _).seq fun t => poke fun s => ?_
  simp only [Labels.node]
  congr 1
  cases s.link with
  | none => rfl
  | some l => simp only [Option.map_some, placeLink]

theorem cloneNode (n : NodeId) : Alias L Id (Chain.cloneNode n : KProg T _) (Chain.cloneNode n) :=
  (doLock n).seq fun _ => (doRead n).thn fun s => (new s.joint).seq fun m => (doUnlock n).seq fun _ =>
    (doLock n).seq fun _ => (doRead n).thn fun s => (setLink m s.link).seq fun _ => (doUnlock n).seq fun _ => .ret rfl

theorem cloneConnect (ns ms : List NodeId) (x : NodeId × NodeId) :
    Alias L Id (Chain.cloneConnect ns ms x : KProg T _) (Chain.cloneConnect ns ms x) := by
  unfold Chain.cloneConnect
  refine (parent x.1).seq fun o => ?_
  have rest : Alias L Id (do
        match ← Node.mimicParent x.1 with
        | some m =>
          let i ← Prog.expect (position m ns) "called `Option::unwrap()` on a `None` value"
          let m' ← Prog.expect ms[i]? "index out of bounds"
          Prog.doLock x.1
          let s ← Prog.doRead x.1
          let mimic ← Prog.expect s.mimic "called `Option::unwrap()` on a `None` value"
          Node.setMimicParent x.2 m' mimic
          Prog.doUnlock x.1
        | none => Pure.pure () : KProg T Unit) (do
        match ← Node.mimicParent x.1 with
        | some m =>
          let i ← Prog.expect (position m ns) "called `Option::unwrap()` on a `None` value"
          let m' ← Prog.expect ms[i]? "index out of bounds"
          Prog.doLock x.1
          let s ← Prog.doRead x.1
          let mimic ← Prog.expect s.mimic "called `Option::unwrap()` on a `None` value"
          Node.setMimicParent x.2 m' mimic
          Prog.doUnlock x.1
        | none => Pure.pure () : KProg T Unit) := by
    refine (mimicParent x.1).seq fun o => ?_
    cases o with
    | none => exact .ret rfl
    | some p =>
      exact (expectSame _ _).seq fun i => (expectSame _ _).seq fun m => (doLock x.1).seq fun _ =>
        (doRead x.1).thn fun s => (expectSame s.mimic _).seq fun mi => (setMimicParent x.2 m mi).seq fun _ => doUnlock x.1
  cases o with
  | none => exact rest
  | some p =>
    exact (expectSame _ _).seq fun i => (expectSame _ _).seq fun m => (setParent x.2 m).seq fun _ => rest

theorem clone (fuel : Nat) : Alias L Id (c.clone fuel : KProg T _) (c.clone fuel) := by
  rcases c with ⟨ns, ms, d⟩
  cases ns with
  | nil => exact .ret rfl
  | cons n ns =>
    refine (isRoot n).seq fun b => ?_
    cases b with
    | false => exact .panic _
    | true =>
      refine (mapList cloneNode (n :: ns)).seq fun nn => (forEach (cloneConnect (n :: ns) nn) _).seq fun _ =>
        (expectSame nn.head? _).seq fun r => (isRoot r).seq fun b => ?_
      cases b with
      | false => exact .panic _
      | true => exact fromRoot fuel r

theorem tryNew : Alias L Id (c.tryNew : KProg T _) c.tryNew := by
  unfold Chain.tryNew
  cases c.nodes.length with
  | zero => exact .panic _
  | succ k => exact seq (findFirst (fun n => (children n).seq fun cs => .ret rfl) _) fun o => .ret rfl

theorem foldTransform (ns : List NodeId) (t : Iso T) :
    Alias L Id (Chain.foldTransform ns t) (Chain.foldTransform ns t) := by
  induction ns generalizing t with
  | nil => exact .ret rfl
  | cons n ns ih => exact (joint n).thn fun j => ih _
theorem endTransform : Alias L Id (c.endTransform : KProg T _) c.endTransform := foldTransform c.nodes Iso.one

theorem fmtWithIndentLevel (fuel level : Nat) (n : NodeId) :
    Alias L (fun _ _ => True) (c.fmtWithIndentLevel fuel level n : KProg T _) (c.fmtWithIndentLevel fuel level n) := by
  induction fuel generalizing level n with
  | zero => exact .diverge
  | succ fuel ih =>
    refine bind (Q := fun _ _ => True) ?_ fun x y _ => (doLock n).seq fun _ => (doRead n).thn fun s => ?_
    · split
      · exact (peek n).thn fun s => .ret trivial
      · exact .ret trivial
    · exact (mapListAny (ih (level + 1)) s.children).bind fun _ _ _ => (doUnlock n).seq fun _ => .ret trivial

theorem display (fuel : Nat) : Alias L (fun _ _ => True) (c.display fuel : KProg T _) (c.display fuel) := by
  rcases c with ⟨ns, ms, d⟩
  cases ns with
  | nil => exact .panic _
  | cons n ns => exact (fmtWithIndentLevel ⟨n :: ns, ms, d⟩ fuel 0 n).bind fun _ _ _ => .ret trivial

theorem jacobian : Alias L Id (K.jacobian c : KProg T _) (K.jacobian c) :=
  by
  refine (endTransform c).seq fun t => (updateTransforms c).seq fun _ => mapList (fun n => ?_) c.movableNodes
  refine (doLock n).seq fun _ => (doRead n).thn fun s => ?_
  refine seq (expectSame s.joint.worldTransform _) fun w => ?_
  exact seq (ofExcept (jacobianColumn t.trans s.joint w)) fun _ => (doUnlock n).seq fun _ => .ret rfl

theorem comAdd (a : ComAcc T) (t : Iso T) (l : Option (Link T)) :
    K.comAdd a (some t) (l.map L.toLink) = K.comAdd a (some t) l := by
  cases l <;> rfl

theorem comLoop (ns : List NodeId) (a : ComAcc T) : Alias L Id (comLoop ns a) (comLoop ns a) := by
  induction ns generalizing a with
  | nil => exact .ret rfl
  | cons n ns ih =>
    refine (worldTransform n).seq fun o => ?_
    cases o with
    | none => exact ih _
    | some t => exact (link n).thn fun l => by simp only [comAdd]; exact ih _

theorem centerOfMass : Alias L Id (K.centerOfMass c : KProg T _) (K.centerOfMass c) :=
  (updateTransforms c).seq fun _ => (comLoop c.nodes _).seq fun _ => .ret rfl

/-! ### inverse kinematics -/

variable (s : IkSolver T) (target : Iso T)

/-- no iteration fails for a reason that has a name in it -/
theorem nextPositions_error {ops : List Bool} {ign : List Nat} {dof : Nat} {jac : Mat T} {err orig : List T}
    {e : KError T} (h : nextPositions s ops ign dof jac err orig = .ok (.error e)) : e = .inverseMatrix := by
  unfold nextPositions at h
  cases h1 : removeRows ops 0 0 jac with
  | error m => simp [h1, Bind.bind, Except.bind] at h
  | ok j1 =>
    cases h2 : removeIndices ign 0 j1 with
    | error m => simp [h1, h2, Bind.bind, Except.bind] at h
    | ok j2 =>
      simp only [h1, h2, Bind.bind, Except.bind] at h
      split at h
      · split at h
        · cases h
        · split at h
          · split at h
            · cases h
            · split at h
              · cases h
              · split at h
                · cases h
                · split at h <;> cases h
          · split at h <;> cases h
      · split at h
        · cases h
        · cases h; rfl

theorem solveOneLoop (ops : List Bool) (ign : List Nat) :
    Alias L (To (Except.mapError L.error)) (K.solveOneLoop s c target ops ign) (K.solveOneLoop s c target ops ign) := by
  refine (jointPositions c).seq fun orig => (endTransform c).seq fun tn => (jacobian c).seq fun jac => ?_
  cases e : nextPositions s ops ign c.dof jac (calcPoseDiffWithConstraints target tn ops) orig with
  | error m => exact .panic m
  | ok x =>
    cases x with
    | error e' => cases nextPositions_error s e; exact .ret rfl
    | ok ps => exact (setJointPositionsClamped c ps).seq fun _ => (endTransform c).seq fun t => .ret rfl

theorem tryLoop (ops : List Bool) (ign : List Nat) (orig : List T) (left : Nat) (last : Option (V3 T × V3 T)) :
    Alias L (To L.result) (K.tryLoop s c target ops ign orig left last)
      (K.tryLoop s c target ops ign orig left last) := by
  induction left generalizing last with
  | zero =>
    refine (setJointPositions c orig).thn fun r => ?_
    cases r with
    | error e => exact .ret rfl
    | ok u => exact (expectSame last _).seq fun _ => .ret rfl
  | succ left ih =>
    refine (solveOneLoop c s target ops ign).thn fun r => ?_
    cases r with
    | error e => exact .ret rfl
    | ok diff =>
      dsimp only [Except.mapError]
      split
      · exact (jointPositions c).seq fun xs => (setJointPositionsClamped c xs).seq fun _ => .ret rfl
      · exact ih _

theorem jointIndex (name : String) (ns : List NodeId) :
    Alias L Id (K.jointIndex name ns : KProg T _) (K.jointIndex (L.joint name) ns) := by
  induction ns with
  | nil => exact .ret rfl
  | cons n ns ih =>
    refine (joint n).thn fun j => ?_
    rw [show (L.toJoint j).name = L.joint j.name from rfl, name_eq]
    split
    · exact .ret rfl
    · exact ih.seq fun _ => .ret rfl

theorem ignoredIndices (names : List String) :
    Alias L (To (Except.mapError L.error)) (K.ignoredIndices c names : KProg T _)
      (K.ignoredIndices c (names.map L.joint)) := by
  induction names with
  | nil => exact .ret rfl
  | cons x xs ih =>
    refine (jointIndex x c.movableNodes).seq fun o => ?_
    cases o with
    | none => exact .ret rfl
    | some i => exact ih.thn fun r => by cases r <;> exact .ret rfl

theorem solveInternal (k : Constraints) :
    Alias L (To L.result) (K.solveInternal s c target k) (K.solveInternal s c target (L.constraints k)) := by
  refine (jointPositions c).seq fun orig => ?_
  rw [show (L.constraints k).ignoredJointNames = k.ignoredJointNames.map L.joint from rfl, List.length_map,
    show defineOperationalSpace (L.constraints k) = defineOperationalSpace k from rfl]
  split
  · exact .panic _
  · dsimp only
    split
    · exact .ret rfl
    · refine (ignoredIndices c _).thn fun r => ?_
      cases r with
      | error e => exact .ret rfl
      | ok is => exact tryLoop c s target _ _ _ _ _

theorem solveWithConstraints (k : Constraints) :
    Alias L (To L.result) (K.solveWithConstraints s c target k)
      (K.solveWithConstraints s c target (L.constraints k)) := by
  refine (jointPositions c).seq fun orig => (solveInternal c s target k).thn fun r => ?_
  cases r with
  | ok u => exact .ret rfl
  | error e => exact (setJointPositions c orig).thn fun r => by cases r <;> exact .ret rfl

/-! ### calls and clients -/

theorem call : {β : Type} → (c : Call T β) → Alias L (c.NamedAnswer L) c.prog (c.named L).prog
  | _, .newNode j => new j
  | _, .setParent n p => setParent n p
  | _, .removeParent n p => removeParent n p
  | _, .setMimicParent n p m => setMimicParent n p m
  | _, .setLink n l => setLink n l
  | _, .setOrigin n t => setOrigin n t
  | _, .setJointPosition n x => setJointPosition n x
  | _, .setJointPositionClamped n x => setJointPositionClamped n x
  | _, .setJointPositionUnchecked n x => setJointPositionUnchecked n x
  | _, .joint n => joint n
  | _, .jointPosition n => jointPosition n
  | _, .parent n => parent n
  | _, .mimicParent n => mimicParent n
  | _, .children n => children n
  | _, .link n => link n
  | _, .isRoot n => isRoot n
  | _, .isEnd n => isEnd n
  | _, .origin n => origin n
  | _, .worldTransform n => worldTransform n
  | _, .worldVelocity n => worldVelocity n
  | _, .iterAncestors fuel n => ancestors fuel (some n)
  | _, .iterDescendants fuel n => descendants fuel [n]
  | _, .fromNodes ns => fromNodes ns
  | _, .fromRoot fuel n => fromRoot fuel n
  | _, .fromEnd fuel n => fromEnd fuel n
  | _, .fromEndToRoot fuel e r => fromEndToRoot fuel e r
  | _, .chainSetOrigin c t => chainSetOrigin c t
  | _, .chainOrigin c => chainOrigin c
  | _, .iterJoints c => iterJoints c
  | _, .iterLinks c => iterLinks c
  | _, .find c name => find c name
  | _, .jointPositions c => jointPositions c
  | _, .setJointPositions c xs => setJointPositions c xs
  | _, .setJointPositionsClamped c xs => setJointPositionsClamped c xs
  | _, .setJointPositionsUnchecked c xs => setJointPositionsUnchecked c xs
  | _, .updateTransforms c => updateTransforms c
  | _, .updateVelocities c => updateVelocities c
  | _, .updateLinkTransforms c => updateLinkTransforms c
  | _, .cloneChain fuel c => clone c fuel
  | _, .tryNew c => tryNew c
  | _, .endTransform c => endTransform c
  | _, .display fuel c => display c fuel
  | _, .jacobian c => jacobian c
  | _, .centerOfMass c => centerOfMass c
  | _, .solve s c target cs => solveWithConstraints c s target cs

theorem client {p q : Client T α} (same : p.SameNamed L q) : Alias L Id p.prog q.prog := by
  induction same with
  | done a => exact .ret rfl
  | call c k k' _ ih => exact (call c).bind fun r r' x => ih r r' x

/-- programs that do the same up to names, one by one -/
inductive All (L : Labels) : List (KProg T α) → List (KProg T α) → Prop
  | nil : All L [] []
  | cons {p q ps qs} (h : Alias L Id p q) (t : All L ps qs) : All L (p :: ps) (q :: qs)

theorem All.get {ps qs : List (KProg T α)} (a : All L ps qs) (i : Nat) {p : KProg T α} (e : ps[i]? = some p) :
    ∃ q, qs[i]? = some q ∧ Alias L Id p q := by
  induction a generalizing i with
  | nil => simp at e
  | cons h t ih =>
    cases i with
    | zero => simp at e; subst e; exact ⟨_, rfl, h⟩
    | succ i => exact ih i (by simpa using e)

theorem All.get' {ps qs : List (KProg T α)} (a : All L ps qs) (i : Nat) {q : KProg T α} (e : qs[i]? = some q) :
    ∃ p, ps[i]? = some p ∧ Alias L Id p q := by
  induction a generalizing i with
  | nil => simp at e
  | cons h t ih =>
    cases i with
    | zero => simp at e; subst e; exact ⟨_, rfl, h⟩
    | succ i => exact ih i (by simpa using e)

theorem All.set {ps qs : List (KProg T α)} (a : All L ps qs) (i : Nat) {p q : KProg T α} (h : Alias L Id p q) :
    All L (ps.set i p) (qs.set i q) := by
  induction a generalizing i with
  | nil => exact .nil
  | cons h' t ih =>
    cases i with
    | zero => exact .cons h t
    | succ i => exact .cons h' (ih i)

end Alias

end K
