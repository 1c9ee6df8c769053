import Verif.Spec.Cargo
import Verif.Lemmas.Run
/-!
# Every call of the API does the same with other links
-/

set_option linter.unusedSectionVars false

namespace K
open Prog
variable {T : Type} [Scalar T] {α β γ δ ε : Type} {V : View}

theorem View.Alike.refl (l : Option (Link T)) : V.Alike l l :=
  ⟨fun _ => by cases l <;> [trivial; exact ⟨rfl, rfl⟩], fun _ => rfl⟩

namespace Reloaded
variable {h g : KHeap T}

theorem setHeld (r : Reloaded V h g) (n : NodeId) (b : Bool) : Reloaded V (h.setHeld n b) (g.setHeld n b) :=
  ⟨r.node, r.next, r.dead, by simp only [Heap.setHeld, r.held]⟩

theorem modify (r : Reloaded V h g) (n : NodeId) {f f' : NodeImpl T → NodeImpl T}
    (hf : ∀ s s' : NodeImpl T, s.Reloaded V s' → (f s).Reloaded V (f' s')) :
    Reloaded V (h.modify n f) (g.modify n f') := by
  refine ⟨fun m => ?_, r.next, r.dead, r.held⟩
  simp only [Heap.modify]
  by_cases x : m = n
  · subst x; simp only [if_true]; exact hf _ _ (r.node _)
  · simp only [if_neg x]; exact r.node m

theorem push (r : Reloaded V h g) {s s' : NodeImpl T} (hs : s.Reloaded V s') : Reloaded V (h.push s) (g.push s') := by
  refine ⟨fun m => ?_, ?_, ?_, ?_⟩
  · simp only [Heap.push, r.next]
    by_cases x : m = h.next
    · simp only [if_pos x]; exact hs
    · simp only [if_neg x]; exact r.node m
  · simp only [Heap.push, r.next]
  · simp only [Heap.push, r.dead, r.next]
  · simp only [Heap.push, r.held, r.next]

theorem free (r : Reloaded V h g) (F : NodeId → Bool) : Reloaded V (h.free F) (g.free F) :=
  ⟨r.node, r.next, by simp only [Heap.free, r.dead], r.held⟩

end Reloaded

/-- `q` does with other links what `p` does -/
inductive Carried (V : View) (Q : α → β → Prop) : KProg T α → KProg T β → Prop
  | ret {a b} (q : Q a b) : Carried V Q (.ret a) (.ret b)
  | lock {n k k'} (x : Carried V Q k k') : Carried V Q (.lock n k) (.lock n k')
  | unlock {n k k'} (x : Carried V Q k k') : Carried V Q (.unlock n k) (.unlock n k')
  | read {n k k'} (x : ∀ s s', NodeImpl.Reloaded V s s' → Carried V Q (k s) (k' s')) : Carried V Q (.read n k) (.read n k')
  | write {n f f' k k'} (hf : ∀ s s' : NodeImpl T, s.Reloaded V s' → (f s).Reloaded V (f' s'))
      (x : Carried V Q k k') : Carried V Q (.write n f k) (.write n f' k')
  | upgrade {n k k'} (x : ∀ b, Carried V Q (k b) (k' b)) : Carried V Q (.upgrade n k) (.upgrade n k')
  | alloc {s s' k k'} (hs : NodeImpl.Reloaded V s s') (x : ∀ m, Carried V Q (k m) (k' m)) :
      Carried V Q (.alloc s k) (.alloc s' k')
  | panic (m : String) : Carried V Q (.panic m) (.panic m)
  | diverge : Carried V Q .diverge .diverge

/-- outcomes that are the same but for links -/
def CargoOutcome (V : View) (Q : α → β → Prop) : Res (NodeImpl T) α → Res (NodeImpl T) β → Prop
  | .ok a h, .ok b g => Q a b ∧ Reloaded V h g
  | .panic m h, .panic m' g => m' = m ∧ Reloaded V h g
  | .blocked n h, .blocked n' g => n' = n ∧ Reloaded V h g
  | .diverged, .diverged => True
  | _, _ => False

namespace Carried
variable {Q : α → β → Prop} {R : γ → δ → Prop}

theorem outcome {p : KProg T α} {q : KProg T β} (s : Carried V Q p q) {h g : KHeap T} (r : Reloaded V h g) :
    CargoOutcome V Q (run p h) (run q g) := by
  induction s generalizing h g with
  | ret q => exact ⟨q, r⟩
  | @lock n k k' _ ih =>
    simp only [K.run, r.held]
    split
    · exact ⟨rfl, r⟩
    · exact ih (r.setHeld n true)
  | unlock _ ih => exact ih (r.setHeld _ false)
  | read _ ih => exact ih _ _ (r.node _) r
  | write hf _ ih => exact ih (r.modify _ hf)
  | upgrade _ ih => simp only [K.run, r.dead]; exact ih _ r
  | alloc hs _ ih => simp only [K.run, r.next]; exact ih _ (r.push hs)
  | panic m => exact ⟨rfl, r⟩
  | diverge => trivial

theorem step {p p' : KProg T α} {q : KProg T β} (s : Carried V Q p q) {h g h' : KHeap T} (r : Reloaded V h g)
    (e : step1 p h = some (p', h')) :
    ∃ q' g', step1 q g = some (q', g') ∧ Reloaded V h' g' ∧ Carried V Q p' q' := by
  cases s with
  | ret q => cases e
  | @lock n k k' x =>
    simp only [step1] at e ⊢
    rw [r.held]
    split at e
    · cases e
    · cases e; rename_i y
      rw [if_neg y]
      exact ⟨_, _, rfl, r.setHeld _ _, x⟩
  | unlock x => cases e; exact ⟨_, _, rfl, r.setHeld _ _, x⟩
  | read x => cases e; exact ⟨_, _, rfl, r, x _ _ (r.node _)⟩
  | write hf x => cases e; exact ⟨_, _, rfl, r.modify _ hf, x⟩
  | upgrade x => cases e; exact ⟨_, _, rfl, r, by rw [r.dead]; exact x _⟩
  | alloc hs x => cases e; exact ⟨_, _, rfl, r.push hs, by rw [r.next]; exact x _⟩
  | panic m => cases e
  | diverge => cases e; exact ⟨_, _, rfl, r, .diverge⟩

theorem back {p : KProg T α} {q q' : KProg T β} (s : Carried V Q p q) {h g g' : KHeap T} (r : Reloaded V h g)
    (e : step1 q g = some (q', g')) :
    ∃ p' h', step1 p h = some (p', h') ∧ Reloaded V h' g' ∧ Carried V Q p' q' := by
  cases s with
  | ret q => cases e
  | @lock n k k' x =>
    simp only [step1] at e ⊢
    rw [r.held] at e
    split at e
    · cases e
    · cases e; rename_i y
      rw [if_neg y]
      exact ⟨_, _, rfl, r.setHeld _ _, x⟩
  | unlock x => cases e; exact ⟨_, _, rfl, r.setHeld _ _, x⟩
  | read x => cases e; exact ⟨_, _, rfl, r, x _ _ (r.node _)⟩
  | write hf x => cases e; exact ⟨_, _, rfl, r.modify _ hf, x⟩
  | upgrade x => cases e; exact ⟨_, _, rfl, r, by rw [r.dead]; exact x _⟩
  | alloc hs x => cases e; exact ⟨_, _, rfl, r.push hs, by rw [r.next]; exact x _⟩
  | panic m => cases e
  | diverge => cases e; exact ⟨_, _, rfl, r, .diverge⟩

theorem bind {p : KProg T α} {q : KProg T β} (s : Carried V Q p q) {f : α → KProg T γ} {g : β → KProg T δ}
    (hf : ∀ a b, Q a b → Carried V R (f a) (g b)) : Carried V R (p >>= f) (q >>= g) := by
  show Carried V R (p.bind f) (q.bind g)
  induction s with
  | ret q => exact hf _ _ q
  | lock _ ih => exact .lock ih
  | unlock _ ih => exact .unlock ih
  | read _ ih => exact .read fun s s' r => ih s s' r
  | write h _ ih => exact .write h ih
  | upgrade _ ih => exact .upgrade fun b => ih b
  | alloc h _ ih => exact .alloc h fun m => ih m
  | panic m => exact .panic m
  | diverge => exact .diverge

/-- the same value -/
abbrev Id : α → α → Prop := fun a b => b = a

/-- sequencing after the same value -/
theorem seq {p q : KProg T α} (s : Carried V Id p q) {f : α → KProg T γ} {g : α → KProg T δ}
    (hf : ∀ a, Carried V R (f a) (g a)) : Carried V R (p >>= f) (q >>= g) :=
  s.bind fun a b e => by subst e; exact hf _

theorem doLock (n : NodeId) : Carried V Id (doLock n : KProg T Unit) (doLock n) := .lock (.ret rfl)
theorem doUnlock (n : NodeId) : Carried V Id (doUnlock n : KProg T Unit) (doUnlock n) := .unlock (.ret rfl)
theorem doUpgrade (n : NodeId) : Carried V Id (doUpgrade n : KProg T Bool) (doUpgrade n) := .upgrade fun _ => .ret rfl
theorem doRead (n : NodeId) : Carried V (NodeImpl.Reloaded V) (doRead n : KProg T _) (doRead n) :=
  .read fun _ _ r => .ret r
theorem doWrite {n : NodeId} {f f' : NodeImpl T → NodeImpl T}
    (hf : ∀ s s' : NodeImpl T, s.Reloaded V s' → (f s).Reloaded V (f' s')) :
    Carried V Id (doWrite n f) (doWrite n f') := .write hf (.ret rfl)
theorem peek (n : NodeId) : Carried V (NodeImpl.Reloaded V) (peek n : KProg T _) (peek n) :=
  .lock (.read fun _ _ r => .unlock (.ret r))
theorem poke {n : NodeId} {f f' : NodeImpl T → NodeImpl T}
    (hf : ∀ s s' : NodeImpl T, s.Reloaded V s' → (f s).Reloaded V (f' s')) :
    Carried V Id (poke n f) (poke n f') := .lock (.write hf (.unlock (.ret rfl)))
theorem expectSame (o : Option α) (m : String) : Carried V Id (Prog.expect o m : KProg T α) (Prog.expect o m) := by
  cases o with
  | none => exact .panic m
  | some a => exact .ret rfl
theorem ofExcept (x : Except String α) : Carried V Id (ofExcept x : KProg T α) (ofExcept x) := by
  cases x with
  | error m => exact .panic m
  | ok a => exact .ret rfl

theorem forEach {f g : γ → KProg T Unit} (h : ∀ x, Carried V Id (f x) (g x)) (xs : List γ) :
    Carried V Id (forEach xs f) (forEach xs g) := by
  induction xs with
  | nil => exact .ret rfl
  | cons x xs ih => exact (h x).bind fun _ _ _ => ih

theorem mapList {f g : γ → KProg T α}
    (h : ∀ x, Carried V Id (f x) (g x)) (xs : List γ) : Carried V Id (Prog.mapList xs f) (Prog.mapList xs g) := by
  induction xs with
  | nil => exact .ret rfl
  | cons x xs ih => exact (h x).seq fun a => ih.seq fun as => .ret rfl

theorem filterList {f g : γ → KProg T Bool}
    (h : ∀ x, Carried V Id (f x) (g x)) (xs : List γ) : Carried V Id (filterList xs f) (filterList xs g) := by
  induction xs with
  | nil => exact .ret rfl
  | cons x xs ih => exact (h x).seq fun a => ih.seq fun as => .ret rfl

theorem findFirst {f g : γ → KProg T Bool}
    (h : ∀ x, Carried V Id (f x) (g x)) (xs : List γ) : Carried V Id (findFirst xs f) (findFirst xs g) := by
  induction xs with
  | nil => exact .ret rfl
  | cons x xs ih =>
    refine (h x).seq fun a => ?_
    cases a
    · exact ih
    · exact .ret rfl

theorem tryEach {f g : γ → KProg T (Except (KError T) Unit)} (h : ∀ x, Carried V Id (f x) (g x))
    (xs : List γ) : Carried V Id (tryEach xs f) (tryEach xs g) := by
  induction xs with
  | nil => exact .ret rfl
  | cons x xs ih =>
    refine (h x).seq fun a => ?_
    cases a with
    | error e => exact .ret rfl
    | ok u => exact ih

/-! ### nodes -/

theorem new (j : Joint T) : Carried V Id (Node.new j) (Node.new j) :=
  .alloc ⟨_, rfl, .refl _⟩ fun _ => .ret rfl
theorem joint (n : NodeId) : Carried V Id (Node.joint n : KProg T _) (Node.joint n) :=
  (peek n).bind fun s s' r => .ret (by obtain ⟨l, rfl, -⟩ := r; rfl)
theorem jointPosition (n : NodeId) : Carried V Id (Node.jointPosition n : KProg T _) (Node.jointPosition n) :=
  (peek n).bind fun s s' r => .ret (by obtain ⟨l, rfl, -⟩ := r; rfl)
theorem children (n : NodeId) : Carried V Id (Node.children n : KProg T _) (Node.children n) :=
  (peek n).bind fun s s' r => .ret (by obtain ⟨l, rfl, -⟩ := r; rfl)
theorem link (n : NodeId) : Carried V V.Alike (Node.link n : KProg T _) (Node.link n) :=
  (peek n).bind fun s s' r => .ret (by obtain ⟨l, rfl, hl⟩ := r; exact hl)
theorem isRoot (n : NodeId) : Carried V Id (Node.isRoot n : KProg T _) (Node.isRoot n) :=
  (peek n).bind fun s s' r => .ret (by obtain ⟨l, rfl, -⟩ := r; rfl)
theorem isEnd (n : NodeId) : Carried V Id (Node.isEnd n : KProg T _) (Node.isEnd n) :=
  (peek n).bind fun s s' r => .ret (by obtain ⟨l, rfl, -⟩ := r; rfl)
theorem origin (n : NodeId) : Carried V Id (Node.origin n : KProg T _) (Node.origin n) :=
  (joint n).seq fun _ => .ret rfl
theorem worldTransform (n : NodeId) : Carried V Id (Node.worldTransform n : KProg T _) (Node.worldTransform n) :=
  (joint n).seq fun _ => .ret rfl
theorem worldVelocity (n : NodeId) : Carried V Id (Node.worldVelocity n : KProg T _) (Node.worldVelocity n) :=
  (joint n).seq fun _ => .ret rfl
theorem parent (n : NodeId) : Carried V Id (Node.parent n : KProg T _) (Node.parent n) := by
  refine (doLock n).seq fun _ => (doRead n).bind fun s s' r => ?_
  obtain ⟨l, rfl, -⟩ := r
  dsimp only
  cases s.parent with
  | none => exact (doUnlock n).seq fun _ => .ret rfl
  | some w => exact (doUpgrade w).seq fun b => (doUnlock n).seq fun _ => .ret rfl

theorem mimicParent (n : NodeId) : Carried V Id (Node.mimicParent n : KProg T _) (Node.mimicParent n) := by
  refine (doLock n).seq fun _ => (doRead n).bind fun s s' r => ?_
  obtain ⟨l, rfl, -⟩ := r
  dsimp only
  cases s.mimicParent with
  | none => exact (doUnlock n).seq fun _ => .ret rfl
  | some w => exact (doUpgrade w).seq fun b => (doUnlock n).seq fun _ => .ret rfl

theorem setParent (n p : NodeId) : Carried V Id (Node.setParent n p : KProg T _) (Node.setParent n p) := by
  refine seq (poke ?_) fun _ => poke ?_
  all_goals rintro s _ ⟨l, rfl, a⟩; exact ⟨_, rfl, a⟩
theorem removeParent (n p : NodeId) : Carried V Id (Node.removeParent n p : KProg T _) (Node.removeParent n p) := by
  refine seq (poke ?_) fun _ => poke ?_
  all_goals rintro s _ ⟨l, rfl, a⟩; exact ⟨_, rfl, a⟩
theorem setMimicParent (n p : NodeId) (m : Mimic T) :
    Carried V Id (Node.setMimicParent n p m) (Node.setMimicParent n p m) := by
  refine seq (poke ?_) fun _ => seq (poke ?_) fun _ => poke ?_
  all_goals rintro s _ ⟨l, rfl, a⟩; exact ⟨_, rfl, a⟩
theorem setLink (n : NodeId) {l l' : Option (Link T)} (r : V.Alike l l') :
    Carried V Id (Node.setLink n l) (Node.setLink n l') :=
  poke fun s s' x => by obtain ⟨l, rfl, -⟩ := x; exact ⟨_, rfl, r⟩

theorem setOrigin (n : NodeId) (t : Iso T) : Carried V Id (Node.setOrigin n t) (Node.setOrigin n t) :=
  poke (by rintro s _ ⟨l, rfl, a⟩; exact ⟨_, rfl, a⟩)
theorem setJointPositionClamped (n : NodeId) (x : T) :
    Carried V Id (Node.setJointPositionClamped n x) (Node.setJointPositionClamped n x) :=
  poke (by rintro s _ ⟨l, rfl, a⟩; exact ⟨_, rfl, a⟩)
theorem setJointPositionUnchecked (n : NodeId) (x : T) :
    Carried V Id (Node.setJointPositionUnchecked n x) (Node.setJointPositionUnchecked n x) :=
  poke (by rintro s _ ⟨l, rfl, a⟩; exact ⟨_, rfl, a⟩)
theorem setMimicChild (n : NodeId) (x : T) (c : NodeId) :
    Carried V Id (Node.setMimicChild n x c) (Node.setMimicChild n x c) := by
  refine (doLock c).seq fun _ => (doRead c).bind fun s s' r => ?_
  obtain ⟨l, rfl, -⟩ := r
  dsimp only
  cases s.mimic with
  | none => exact (joint n).seq fun j1 => (joint c).seq fun j2 => (doUnlock c).seq fun _ => .ret rfl
  | some m =>
    refine seq (doWrite ?_) fun _ => (doUnlock c).seq fun _ => .ret rfl
    rintro s _ ⟨l, rfl, a⟩; exact ⟨_, rfl, a⟩

theorem setJointPosition (n : NodeId) (x : T) :
    Carried V Id (Node.setJointPosition n x) (Node.setJointPosition n x) := by
  refine (doLock n).seq fun _ => (doRead n).bind fun s s' r => ?_
  obtain ⟨l, rfl, -⟩ := r
  dsimp only
  split
  · exact (doUnlock n).seq fun _ => .ret rfl
  · refine seq (doWrite ?_) fun _ => ?_
    · rintro s _ ⟨l, rfl, a⟩; exact ⟨_, rfl, a⟩
    · cases (s.joint.setJointPosition x).2 with
      | error e => exact (doUnlock n).seq fun _ => .ret rfl
      | ok => exact (tryEach (setMimicChild n x) s.mimicChildren).seq fun r => (doUnlock n).seq fun _ => .ret rfl

theorem parentWorldTransform (n : NodeId) :
    Carried V Id (Node.parentWorldTransform n : KProg T _) (Node.parentWorldTransform n) :=
  (parent n).seq fun o => by
    cases o with
    | none => exact .ret rfl
    | some p => exact worldTransform p
theorem parentWorldVelocity (n : NodeId) :
    Carried V Id (Node.parentWorldVelocity n : KProg T _) (Node.parentWorldVelocity n) :=
  (parent n).seq fun o => by
    cases o with
    | none => exact .ret rfl
    | some p => exact worldVelocity p

/-! ### iterators -/

theorem ancestors (fuel : Nat) (o : Option NodeId) : Carried V Id (ancestors fuel o : KProg T _) (ancestors fuel o) := by
  induction fuel generalizing o with
  | zero =>
    cases o with
    | none => exact .ret rfl
    | some n => exact .diverge
  | succ fuel ih =>
    cases o with
    | none => exact .ret rfl
    | some n => exact (parent n).seq fun p => (ih p).seq fun _ => .ret rfl

theorem ancestorsUntil (stop : NodeId) (fuel : Nat) (o : Option NodeId) :
    Carried V Id (ancestorsUntil stop fuel o : KProg T _) (ancestorsUntil stop fuel o) := by
  induction fuel generalizing o with
  | zero =>
    cases o with
    | none => exact .ret rfl
    | some n => exact .diverge
  | succ fuel ih =>
    cases o with
    | none => exact .ret rfl
    | some n =>
      refine (parent n).seq fun p => ?_
      split
      · exact .ret rfl
      · exact (ih p).seq fun _ => .ret rfl

theorem descendants (fuel : Nat) (st : List NodeId) :
    Carried V Id (descendants fuel st : KProg T _) (descendants fuel st) := by
  induction fuel generalizing st with
  | zero =>
    cases st with
    | nil => exact .ret rfl
    | cons n st => exact .diverge
  | succ fuel ih =>
    cases st with
    | nil => exact .ret rfl
    | cons n st => exact (children n).seq fun cs => (ih _).seq fun _ => .ret rfl

/-! ### chains -/

theorem fromNodes (ns : List NodeId) : Carried V Id (Chain.fromNodes ns : KProg T _) (Chain.fromNodes ns) := by
  refine seq (filterList (fun n => ?_) ns) fun _ => .ret rfl
  exact (joint n).seq fun _ => .ret rfl
theorem fromRoot (fuel : Nat) (n : NodeId) : Carried V Id (Chain.fromRoot fuel n : KProg T _) (Chain.fromRoot fuel n) :=
  (descendants fuel [n]).seq fun ns => fromNodes ns
theorem fromEnd (fuel : Nat) (n : NodeId) : Carried V Id (Chain.fromEnd fuel n : KProg T _) (Chain.fromEnd fuel n) :=
  (ancestors fuel (some n)).seq fun _ => fromNodes _
theorem fromEndToRoot (fuel : Nat) (e r : NodeId) :
    Carried V Id (Chain.fromEndToRoot fuel e r : KProg T _) (Chain.fromEndToRoot fuel e r) :=
  (ancestorsUntil r fuel (some e)).seq fun _ => fromNodes _

variable (c : Chain)

theorem chainSetOrigin (t : Iso T) : Carried V Id (c.setOrigin t) (c.setOrigin t) := by
  rcases c with ⟨ns, ms, d⟩
  cases ns with
  | nil => exact .panic _
  | cons n ns => exact setOrigin n t
theorem chainOrigin : Carried V Id (c.origin : KProg T _) c.origin := by
  rcases c with ⟨ns, ms, d⟩
  cases ns with
  | nil => exact .panic _
  | cons n ns => exact origin n
theorem iterJoints : Carried V Id (c.iterJoints : KProg T _) c.iterJoints :=
  mapList joint c.movableNodes

theorem find (name : String) : Carried V Id (c.find name : KProg T _) (c.find name) := by
  refine findFirst (fun n => ?_) c.nodes
  exact (joint n).seq fun _ => .ret rfl

theorem jointPositions : Carried V Id (c.jointPositions : KProg T _) c.jointPositions := by
  refine mapList (fun n => ?_) c.movableNodes
  refine (doLock n).seq fun _ => (doRead n).bind fun s s' r => ?_
  obtain ⟨l, rfl, -⟩ := r
  exact seq (expectSame s.joint.jointPosition _) fun _ => (doUnlock n).seq fun _ => .ret rfl

theorem setJointPositions (xs : List T) : Carried V Id (c.setJointPositions xs) (c.setJointPositions xs) := by
  unfold Chain.setJointPositions
  split
  · exact .ret rfl
  · exact tryEach (fun p : NodeId × T => setJointPosition p.1 p.2) _
theorem setJointPositionsClamped (xs : List T) :
    Carried V Id (c.setJointPositionsClamped xs) (c.setJointPositionsClamped xs) :=
  forEach (fun p : NodeId × T => setJointPositionClamped p.1 p.2) _
theorem setJointPositionsUnchecked (xs : List T) :
    Carried V Id (c.setJointPositionsUnchecked xs) (c.setJointPositionsUnchecked xs) :=
  forEach (fun p : NodeId × T => setJointPositionUnchecked p.1 p.2) _

theorem cloneNode (n : NodeId) : Carried V Id (Chain.cloneNode n : KProg T _) (Chain.cloneNode n) := by
  refine (doLock n).seq fun _ => (doRead n).bind fun s s' r => ?_
  obtain ⟨l, rfl, -⟩ := r
  refine (new s.joint).seq fun m => (doUnlock n).seq fun _ => (doLock n).seq fun _ => (doRead n).bind fun s s' r => ?_
  obtain ⟨l, rfl, hl⟩ := r
  exact (setLink m hl).seq fun _ => (doUnlock n).seq fun _ => .ret rfl

theorem cloneConnect (ns ms : List NodeId) (x : NodeId × NodeId) :
    Carried V Id (Chain.cloneConnect ns ms x : KProg T _) (Chain.cloneConnect ns ms x) := by
  unfold Chain.cloneConnect
  refine (parent x.1).seq fun o => ?_
  have rest : Carried V Id (do
        match ← Node.mimicParent x.1 with
        | some m =>
          let i ← Prog.expect (position m ns) "called `Option::unwrap()` on a `None` value"
          let m' ← Prog.expect ms[i]? "index out of bounds"
          Prog.doLock x.1
          let s ← Prog.doRead x.1
          let mimic ← Prog.expect s.mimic "called `Option::unwrap()` on a `None` value"
          Node.setMimicParent x.2 m' mimic
          Prog.doUnlock x.1
        | none => Pure.pure () : KProg T Unit) (do
        match ← Node.mimicParent x.1 with
        | some m =>
          let i ← Prog.expect (position m ns) "called `Option::unwrap()` on a `None` value"
          let m' ← Prog.expect ms[i]? "index out of bounds"
          Prog.doLock x.1
          let s ← Prog.doRead x.1
          let mimic ← Prog.expect s.mimic "called `Option::unwrap()` on a `None` value"
          Node.setMimicParent x.2 m' mimic
          Prog.doUnlock x.1
        | none => Pure.pure () : KProg T Unit) := by
    refine (mimicParent x.1).seq fun o => ?_
    cases o with
    | none => exact .ret rfl
    | some p =>
      refine (expectSame _ _).seq fun i => (expectSame _ _).seq fun m => (doLock x.1).seq fun _ =>
        (doRead x.1).bind fun s s' r => ?_
      obtain ⟨l, rfl, -⟩ := r
      exact (expectSame s.mimic _).seq fun mi => (setMimicParent x.2 m mi).seq fun _ => doUnlock x.1
  cases o with
  | none => exact rest
  | some p =>
    exact (expectSame _ _).seq fun i => (expectSame _ _).seq fun m => (setParent x.2 m).seq fun _ => rest

theorem clone (fuel : Nat) : Carried V Id (c.clone fuel : KProg T _) (c.clone fuel) := by
  rcases c with ⟨ns, ms, d⟩
  cases ns with
  | nil => exact .ret rfl
  | cons n ns =>
    refine (isRoot n).seq fun b => ?_
    cases b with
    | false => exact .panic _
    | true =>
      refine (mapList cloneNode (n :: ns)).seq fun nn => (forEach (cloneConnect (n :: ns) nn) _).seq fun _ =>
        (expectSame nn.head? _).seq fun r => (isRoot r).seq fun b => ?_
      cases b with
      | false => exact .panic _
      | true => exact fromRoot fuel r

theorem tryNew : Carried V Id (c.tryNew : KProg T _) c.tryNew := by
  unfold Chain.tryNew
  cases c.nodes.length with
  | zero => exact .panic _
  | succ k => exact seq (findFirst (fun n => (children n).seq fun cs => .ret rfl) _) fun o => .ret rfl

theorem display_alike {s s' : NodeImpl T} (vn : V.name) (r : s.Reloaded V s') (level : Nat) :
    displayLine level s' = displayLine level s := by
  obtain ⟨l, rfl, hl⟩ := r
  have := hl.name vn
  rcases s with ⟨j, pa, ch, mp, mc, mi, lk⟩
  cases lk <;> cases l
  · rfl
  · cases this
  · cases this
  · simp only [Option.map_some, Option.some.injEq] at this
    simp only [displayLine, NodeImpl.display, this]

theorem fmtWithIndentLevel (vn : V.name) (fuel level : Nat) (n : NodeId) :
    Carried V Id (c.fmtWithIndentLevel fuel level n : KProg T _) (c.fmtWithIndentLevel fuel level n) := by
  induction fuel generalizing level n with
  | zero => exact .diverge
  | succ fuel ih =>
    refine seq ?_ fun x => (doLock n).seq fun _ => (doRead n).bind fun s s' r => ?_
    · split
      · exact (peek n).bind fun s s' r => .ret (by rw [Id, display_alike vn r])
      · exact .ret rfl
    · obtain ⟨l, rfl, -⟩ := r
      exact seq (mapList (ih (level + 1)) s.children) fun _ => (doUnlock n).seq fun _ => .ret rfl

theorem display (vn : V.name) (fuel : Nat) : Carried V Id (c.display fuel : KProg T _) (c.display fuel) := by
  rcases c with ⟨ns, ms, d⟩
  cases ns with
  | nil => exact .panic _
  | cons n ns => exact (fmtWithIndentLevel ⟨n :: ns, ms, d⟩ vn fuel 0 n).seq fun _ => .ret rfl

/-! ### kinematics -/

theorem updateTransform (n : NodeId) :
    Carried V Id (Chain.updateTransform n : KProg T _) (Chain.updateTransform n) :=
  (parentWorldTransform n).seq fun o => (expectSame o _).seq fun t => (joint n).seq fun j =>
    seq (poke (by rintro s _ ⟨l, rfl, a⟩; exact ⟨_, rfl, a⟩)) fun _ => .ret rfl

theorem updateTransforms : Carried V Id (c.updateTransforms : KProg T _) c.updateTransforms :=
  mapList updateTransform c.nodes

theorem updateVelocity (n : NodeId) : Carried V Id (Chain.updateVelocity n : KProg T _) (Chain.updateVelocity n) := by
  refine (parentWorldTransform n).seq fun o => (expectSame o _).seq fun t => (parentWorldVelocity n).seq fun ov =>
    (expectSame ov _).seq fun v => (doLock n).seq fun _ => (doRead n).bind fun s s' r => ?_
  obtain ⟨l, rfl, -⟩ := r
  refine seq ?_ fun w => (doUnlock n).seq fun _ =>
    seq (poke (by rintro s _ ⟨l, rfl, a⟩; exact ⟨_, rfl, a⟩)) fun _ => .ret rfl
  dsimp only
  cases s.joint.jointType with
  | fixed => exact .ret rfl
  | rotational a =>
    exact (parent n).seq fun o => (expectSame o _).seq fun p => (joint p).seq fun j =>
      (worldTransform n).seq fun o => (expectSame o _).seq fun w => (joint n).seq fun j2 =>
      (expectSame j2.jointVelocity _).seq fun q => .ret rfl
  | linear a =>
    exact (worldTransform n).seq fun o => (expectSame o _).seq fun w => (joint n).seq fun j2 =>
      (expectSame j2.jointVelocity _).seq fun q => .ret rfl

theorem updateVelocities : Carried V Id (c.updateVelocities : KProg T _) c.updateVelocities :=
  (updateTransforms c).bind fun _ _ _ => mapList updateVelocity c.nodes

theorem placed (t : Iso T) {l l' : Option (Link T)} (r : V.Alike l l') :
    V.Alike (l.map (Chain.placeLink t)) (l'.map (Chain.placeLink t)) := by
  constructor
  · intro vm
    have := r.mass vm
    cases l <;> cases l'
    · trivial
    · exact this.elim
    · exact this.elim
    · exact this
  · intro vn
    have := r.name vn
    cases l <;> cases l' <;> first | rfl | cases this | exact this

theorem updateLinkTransforms : Carried V Id (c.updateLinkTransforms : KProg T _) c.updateLinkTransforms :=
  (updateTransforms c).bind fun _ _ _ => forEach (fun n =>
    (parentWorldTransform n).seq fun o => (expectSame o _).seq fun t =>
      poke (by rintro s _ ⟨l, rfl, a⟩; exact ⟨_, rfl, placed t a⟩)) c.nodes

theorem foldTransform (ns : List NodeId) (t : Iso T) :
    Carried V Id (Chain.foldTransform ns t) (Chain.foldTransform ns t) := by
  induction ns generalizing t with
  | nil => exact .ret rfl
  | cons n ns ih => exact (joint n).seq fun j => ih _
theorem endTransform : Carried V Id (c.endTransform : KProg T _) c.endTransform :=
  foldTransform c.nodes _

theorem jacobian : Carried V Id (K.jacobian c : KProg T _) (K.jacobian c) := by
  refine (endTransform c).seq fun t => (updateTransforms c).seq fun _ => mapList (fun n => ?_) c.movableNodes
  refine (doLock n).seq fun _ => (doRead n).bind fun s s' y => ?_
  obtain ⟨l, rfl, -⟩ := y
  exact seq (expectSame s.joint.worldTransform _) fun w => seq (ofExcept _) fun _ => (doUnlock n).seq fun _ => .ret rfl

theorem comLoop (vm : V.mass) (ns : List NodeId) (a : ComAcc T) : Carried V Id (comLoop ns a) (comLoop ns a) := by
  induction ns generalizing a with
  | nil => exact .ret rfl
  | cons n ns ih =>
    refine (worldTransform n).seq fun o => ?_
    cases o with
    | none => exact ih _
    | some t =>
      refine (link n).bind fun l l' y => ?_
      have : comAdd a (some t) l' = comAdd a (some t) l := by
        have := y.mass vm
        cases l <;> cases l'
        · rfl
        · exact this.elim
        · exact this.elim
        · obtain ⟨e1, e2⟩ := this
          simp only [comAdd, e1, e2]
      rw [this]
      exact ih _

theorem centerOfMass (vm : V.mass) : Carried V Id (K.centerOfMass c : KProg T _) (K.centerOfMass c) :=
  (updateTransforms c).seq fun _ => (comLoop vm c.nodes _).seq fun _ => .ret rfl

/-! ### inverse kinematics -/

variable (s : IkSolver T) (target : Iso T)

theorem solveOneLoop (ops : List Bool) (ign : List Nat) :
    Carried V Id (K.solveOneLoop s c target ops ign) (K.solveOneLoop s c target ops ign) := by
  refine (jointPositions c).seq fun orig => (endTransform c).seq fun tn => (jacobian c).seq fun jac => ?_
  refine (ofExcept _).seq fun x => ?_
  cases x with
  | error e' => exact .ret rfl
  | ok ps =>
    exact (setJointPositionsClamped c ps).seq fun _ => (endTransform c).seq fun t => .ret rfl

theorem tryLoop (ops : List Bool) (ign : List Nat) (orig : List T) (left : Nat)
    (last : Option (V3 T × V3 T)) :
    Carried V Id (K.tryLoop s c target ops ign orig left last) (K.tryLoop s c target ops ign orig left last) := by
  induction left generalizing last with
  | zero =>
    refine (setJointPositions c orig).seq fun r => ?_
    cases r with
    | error e => exact .ret rfl
    | ok u => exact (expectSame last _).seq fun _ => .ret rfl
  | succ left ih =>
    refine (solveOneLoop c s target ops ign).seq fun r => ?_
    cases r with
    | error e => exact .ret rfl
    | ok diff =>
      dsimp only
      split
      · exact (jointPositions c).seq fun xs => (setJointPositionsClamped c xs).seq fun _ => .ret rfl
      · exact ih _

theorem jointIndex (name : String) (ns : List NodeId) :
    Carried V Id (K.jointIndex name ns : KProg T _) (K.jointIndex name ns) := by
  induction ns with
  | nil => exact .ret rfl
  | cons n ns ih =>
    refine (joint n).seq fun j => ?_
    split
    · exact .ret rfl
    · exact ih.seq fun _ => .ret rfl

theorem ignoredIndices (names : List String) :
    Carried V Id (K.ignoredIndices c names : KProg T _) (K.ignoredIndices c names) := by
  induction names with
  | nil => exact .ret rfl
  | cons x xs ih =>
    refine (jointIndex x c.movableNodes).seq fun o => ?_
    cases o with
    | none => exact .ret rfl
    | some i => exact ih.seq fun r => by cases r <;> exact .ret rfl

theorem solveInternal (k : Constraints) :
    Carried V Id (K.solveInternal s c target k) (K.solveInternal s c target k) := by
  refine (jointPositions c).seq fun orig => ?_
  split
  · exact .panic _
  · dsimp only
    split
    · exact .ret rfl
    · refine (ignoredIndices c _).seq fun r => ?_
      cases r with
      | error e => exact .ret rfl
      | ok is => exact tryLoop c s target _ _ _ _ _

theorem solveWithConstraints (k : Constraints) :
    Carried V Id (K.solveWithConstraints s c target k) (K.solveWithConstraints s c target k) := by
  refine (jointPositions c).seq fun orig => (solveInternal c s target k).seq fun r => ?_
  cases r with
  | ok u => exact .ret rfl
  | error e => exact (setJointPositions c orig).seq fun r => by cases r <;> exact .ret rfl

/-! ### calls and clients -/

theorem same : {β : Type} → (c : Call T β) → c.LooksAt V → Carried V Id c.prog c.prog
  | _, .newNode j, _ => new j
  | _, .setParent n p, _ => setParent n p
  | _, .removeParent n p, _ => removeParent n p
  | _, .setMimicParent n p m, _ => setMimicParent n p m
  | _, .setLink _ _, no => no.elim
  | _, .setOrigin n t, _ => setOrigin n t
  | _, .setJointPosition n x, _ => setJointPosition n x
  | _, .setJointPositionClamped n x, _ => setJointPositionClamped n x
  | _, .setJointPositionUnchecked n x, _ => setJointPositionUnchecked n x
  | _, .joint n, _ => joint n
  | _, .jointPosition n, _ => jointPosition n
  | _, .parent n, _ => parent n
  | _, .mimicParent n, _ => mimicParent n
  | _, .children n, _ => children n
  | _, .link _, no => no.elim
  | _, .isRoot n, _ => isRoot n
  | _, .isEnd n, _ => isEnd n
  | _, .origin n, _ => origin n
  | _, .worldTransform n, _ => worldTransform n
  | _, .worldVelocity n, _ => worldVelocity n
  | _, .iterAncestors fuel n, _ => ancestors fuel (some n)
  | _, .iterDescendants fuel n, _ => descendants fuel [n]
  | _, .fromNodes ns, _ => fromNodes ns
  | _, .fromRoot fuel n, _ => fromRoot fuel n
  | _, .fromEnd fuel n, _ => fromEnd fuel n
  | _, .fromEndToRoot fuel e r, _ => fromEndToRoot fuel e r
  | _, .chainSetOrigin c t, _ => chainSetOrigin c t
  | _, .chainOrigin c, _ => chainOrigin c
  | _, .iterJoints c, _ => iterJoints c
  | _, .iterLinks _, no => no.elim
  | _, .find c name, _ => find c name
  | _, .jointPositions c, _ => jointPositions c
  | _, .setJointPositions c xs, _ => setJointPositions c xs
  | _, .setJointPositionsClamped c xs, _ => setJointPositionsClamped c xs
  | _, .setJointPositionsUnchecked c xs, _ => setJointPositionsUnchecked c xs
  | _, .updateTransforms c, _ => updateTransforms c
  | _, .updateVelocities c, _ => updateVelocities c
  | _, .updateLinkTransforms c, _ => updateLinkTransforms c
  | _, .cloneChain fuel c, _ => clone c fuel
  | _, .tryNew c, _ => tryNew c
  | _, .endTransform c, _ => endTransform c
  | _, .display fuel c, vn => display c vn fuel
  | _, .jacobian c, _ => jacobian c
  | _, .centerOfMass c, vm => centerOfMass c vm
  | _, .solve s c t cs, _ => solveWithConstraints c s t cs

theorem call {β : Type} {c c' : Call T β} (r : c.Reloaded V c') : Carried V Id c.prog c'.prog := by
  cases r with
  | setLink n r => exact setLink n r
  | other c no => exact same c no

theorem client {p q : Client T α} (r : p.Reloaded V q) : Carried V Id p.prog q.prog := by
  induction r with
  | done a => exact .ret rfl
  | call k k' r _ ih => exact (call r).seq fun a => ih a

/-- programs that do the same but for links, one by one -/
inductive All (V : View) : List (KProg T α) → List (KProg T α) → Prop
  | nil : All V [] []
  | cons {p q ps qs} (h : Carried V Id p q) (t : All V ps qs) : All V (p :: ps) (q :: qs)

theorem All.get {ps qs : List (KProg T α)} (a : All V ps qs) (i : Nat) {p : KProg T α} (e : ps[i]? = some p) :
    ∃ q, qs[i]? = some q ∧ Carried V Id p q := by
  induction a generalizing i with
  | nil => simp at e
  | cons h t ih =>
    cases i with
    | zero => simp at e; subst e; exact ⟨_, rfl, h⟩
    | succ i => exact ih i (by simpa using e)

theorem All.back {ps qs : List (KProg T α)} (a : All V ps qs) (i : Nat) {q : KProg T α} (e : qs[i]? = some q) :
    ∃ p, ps[i]? = some p ∧ Carried V Id p q := by
  induction a generalizing i with
  | nil => simp at e
  | cons h t ih =>
    cases i with
    | zero => simp at e; subst e; exact ⟨_, rfl, h⟩
    | succ i => exact ih i (by simpa using e)

theorem All.set {ps qs : List (KProg T α)} (a : All V ps qs) (i : Nat) {p q : KProg T α} (h : Carried V Id p q) :
    All V (ps.set i p) (qs.set i q) := by
  induction a generalizing i with
  | nil => exact .nil
  | cons h' t ih =>
    cases i with
    | zero => exact .cons h t
    | succ i => exact .cons h' (ih i)

end Carried

/-- sequencing outcomes -/
theorem CargoOutcome.bind {Q : α → β → Prop} {R : γ → δ → Prop} {p : KProg T α} {q : KProg T β} {h g : KHeap T}
    (o : CargoOutcome V Q (run p h) (run q g)) {f : α → KProg T γ} {k : β → KProg T δ}
    (next : ∀ a b h' g', run p h = .ok a h' → Q a b → Reloaded V h' g' →
      CargoOutcome V R (run (f a) h') (run (k b) g')) :
    CargoOutcome V R (run (p >>= f) h) (run (q >>= k) g) := by
  rw [run_bind, run_bind]
  cases e : run p h <;> cases e' : run q g <;> rw [e, e'] at o <;> simp only [CargoOutcome] at o
  · exact next _ _ _ _ e o.1 o.2
  · exact o
  · exact o
  · trivial

end K
