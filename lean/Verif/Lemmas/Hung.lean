import Verif.Spec.Rehang
import Verif.Lemmas.Run
/-!
# Every call of the API does the same when something else hangs elsewhere
-/

set_option linter.unusedSectionVars false

namespace K
open Prog
variable {T : Type} [Scalar T] {α β γ δ ε : Type} {D : NodeId → Prop}

namespace Rehung
variable {h g : KHeap T}

theorem setHeld (r : Rehung D h g) (n : NodeId) (b : Bool) : Rehung D (h.setHeld n b) (g.setHeld n b) :=
  ⟨r.node, r.next, r.dead, by simp only [Heap.setHeld, r.held]⟩

theorem modify (r : Rehung D h g) (n : NodeId) {f f' : NodeImpl T → NodeImpl T}
    (hf : ∀ s s' : NodeImpl T, s.Rehung D n s' → (f s).Rehung D n (f' s')) :
    Rehung D (h.modify n f) (g.modify n f') := by
  refine ⟨fun m => ?_, r.next, r.dead, r.held⟩
  simp only [Heap.modify]
  by_cases x : m = n
  · subst x; simp only [if_true]; exact hf _ _ (r.node _)
  · simp only [if_neg x]; exact r.node m

theorem push (r : Rehung D h g) {s s' : NodeImpl T} (hs : ∀ n, s.Rehung D n s') : Rehung D (h.push s) (g.push s') := by
  refine ⟨fun m => ?_, ?_, ?_, ?_⟩
  · simp only [Heap.push, r.next]
    by_cases x : m = h.next
    · simp only [if_pos x]; exact hs _
    · simp only [if_neg x]; exact r.node m
  · simp only [Heap.push, r.next]
  · simp only [Heap.push, r.dead, r.next]
  · simp only [Heap.push, r.held, r.next]

theorem free (r : Rehung D h g) (F : NodeId → Bool) : Rehung D (h.free F) (g.free F) :=
  ⟨r.node, r.next, by simp only [Heap.free, r.dead], r.held⟩

end Rehung

/-- `q` does with nodes hung elsewhere what `p` does -/
inductive Hung (D : NodeId → Prop) (Q : α → β → Prop) : KProg T α → KProg T β → Prop
  | ret {a b} (q : Q a b) : Hung D Q (.ret a) (.ret b)
  | lock {n k k'} (x : Hung D Q k k') : Hung D Q (.lock n k) (.lock n k')
  | unlock {n k k'} (x : Hung D Q k k') : Hung D Q (.unlock n k) (.unlock n k')
  | read {n k k'} (x : ∀ s s', NodeImpl.Rehung D n s s' → Hung D Q (k s) (k' s')) : Hung D Q (.read n k) (.read n k')
  | write {n f f' k k'} (hf : ∀ s s' : NodeImpl T, s.Rehung D n s' → (f s).Rehung D n (f' s'))
      (x : Hung D Q k k') : Hung D Q (.write n f k) (.write n f' k')
  | upgrade {n k k'} (x : ∀ b, Hung D Q (k b) (k' b)) : Hung D Q (.upgrade n k) (.upgrade n k')
  | alloc {s s' k k'} (hs : ∀ n, NodeImpl.Rehung D n s s') (x : ∀ m, Hung D Q (k m) (k' m)) :
      Hung D Q (.alloc s k) (.alloc s' k')
  | panic (m : String) : Hung D Q (.panic m) (.panic m)
  | diverge : Hung D Q .diverge .diverge

/-- outcomes that are the same but for what hangs where -/
def HangOutcome (D : NodeId → Prop) (Q : α → β → Prop) : Res (NodeImpl T) α → Res (NodeImpl T) β → Prop
  | .ok a h, .ok b g => Q a b ∧ Rehung D h g
  | .panic m h, .panic m' g => m' = m ∧ Rehung D h g
  | .blocked n h, .blocked n' g => n' = n ∧ Rehung D h g
  | .diverged, .diverged => True
  | _, _ => False

namespace Hung
variable {Q : α → β → Prop} {R : γ → δ → Prop}

theorem outcome {p : KProg T α} {q : KProg T β} (s : Hung D Q p q) {h g : KHeap T} (r : Rehung D h g) :
    HangOutcome D Q (run p h) (run q g) := by
  induction s generalizing h g with
  | ret q => exact ⟨q, r⟩
  | @lock n k k' _ ih =>
    simp only [K.run, r.held]
    split
    · exact ⟨rfl, r⟩
    · exact ih (r.setHeld n true)
  | unlock _ ih => exact ih (r.setHeld _ false)
  | read _ ih => exact ih _ _ (r.node _) r
  | write hf _ ih => exact ih (r.modify _ hf)
  | upgrade _ ih => simp only [K.run, r.dead]; exact ih _ r
  | alloc hs _ ih => simp only [K.run, r.next]; exact ih _ (r.push hs)
  | panic m => exact ⟨rfl, r⟩
  | diverge => trivial

theorem step {p p' : KProg T α} {q : KProg T β} (s : Hung D Q p q) {h g h' : KHeap T} (r : Rehung D h g)
    (e : step1 p h = some (p', h')) :
    ∃ q' g', step1 q g = some (q', g') ∧ Rehung D h' g' ∧ Hung D Q p' q' := by
  cases s with
  | ret q => cases e
  | @lock n k k' x =>
    simp only [step1] at e ⊢
    rw [r.held]
    split at e
    · cases e
    · cases e; rename_i y
      rw [if_neg y]
      exact ⟨_, _, rfl, r.setHeld _ _, x⟩
  | unlock x => cases e; exact ⟨_, _, rfl, r.setHeld _ _, x⟩
  | read x => cases e; exact ⟨_, _, rfl, r, x _ _ (r.node _)⟩
  | write hf x => cases e; exact ⟨_, _, rfl, r.modify _ hf, x⟩
  | upgrade x => cases e; exact ⟨_, _, rfl, r, by rw [r.dead]; exact x _⟩
  | alloc hs x => cases e; exact ⟨_, _, rfl, r.push hs, by rw [r.next]; exact x _⟩
  | panic m => cases e
  | diverge => cases e; exact ⟨_, _, rfl, r, .diverge⟩

theorem back {p : KProg T α} {q q' : KProg T β} (s : Hung D Q p q) {h g g' : KHeap T} (r : Rehung D h g)
    (e : step1 q g = some (q', g')) :
    ∃ p' h', step1 p h = some (p', h') ∧ Rehung D h' g' ∧ Hung D Q p' q' := by
  cases s with
  | ret q => cases e
  | @lock n k k' x =>
    simp only [step1] at e ⊢
    rw [r.held] at e
    split at e
    · cases e
    · cases e; rename_i y
      rw [if_neg y]
      exact ⟨_, _, rfl, r.setHeld _ _, x⟩
  | unlock x => cases e; exact ⟨_, _, rfl, r.setHeld _ _, x⟩
  | read x => cases e; exact ⟨_, _, rfl, r, x _ _ (r.node _)⟩
  | write hf x => cases e; exact ⟨_, _, rfl, r.modify _ hf, x⟩
  | upgrade x => cases e; exact ⟨_, _, rfl, r, by rw [r.dead]; exact x _⟩
  | alloc hs x => cases e; exact ⟨_, _, rfl, r.push hs, by rw [r.next]; exact x _⟩
  | panic m => cases e
  | diverge => cases e; exact ⟨_, _, rfl, r, .diverge⟩

theorem bind {p : KProg T α} {q : KProg T β} (s : Hung D Q p q) {f : α → KProg T γ} {g : β → KProg T δ}
    (hf : ∀ a b, Q a b → Hung D R (f a) (g b)) : Hung D R (p >>= f) (q >>= g) := by
  show Hung D R (p.bind f) (q.bind g)
  induction s with
  | ret q => exact hf _ _ q
  | lock _ ih => exact .lock ih
  | unlock _ ih => exact .unlock ih
  | read _ ih => exact .read fun s s' r => ih s s' r
  | write h _ ih => exact .write h ih
  | upgrade _ ih => exact .upgrade fun b => ih b
  | alloc h _ ih => exact .alloc h fun m => ih m
  | panic m => exact .panic m
  | diverge => exact .diverge

/-- the same value -/
abbrev Id : α → α → Prop := fun a b => b = a

/-- sequencing after the same value -/
theorem seq {p q : KProg T α} (s : Hung D Id p q) {f : α → KProg T γ} {g : α → KProg T δ}
    (hf : ∀ a, Hung D R (f a) (g a)) : Hung D R (p >>= f) (q >>= g) :=
  s.bind fun a b e => by subst e; exact hf _

theorem doLock (n : NodeId) : Hung D Id (doLock n : KProg T Unit) (doLock n) := .lock (.ret rfl)
theorem doUnlock (n : NodeId) : Hung D Id (doUnlock n : KProg T Unit) (doUnlock n) := .unlock (.ret rfl)
theorem doUpgrade (n : NodeId) : Hung D Id (doUpgrade n : KProg T Bool) (doUpgrade n) := .upgrade fun _ => .ret rfl
theorem doRead (n : NodeId) : Hung D (NodeImpl.Rehung D n) (doRead n : KProg T _) (doRead n) :=
  .read fun _ _ r => .ret r
theorem doWrite {n : NodeId} {f f' : NodeImpl T → NodeImpl T}
    (hf : ∀ s s' : NodeImpl T, s.Rehung D n s' → (f s).Rehung D n (f' s')) :
    Hung D Id (doWrite n f) (doWrite n f') := .write hf (.ret rfl)
theorem peek (n : NodeId) : Hung D (NodeImpl.Rehung D n) (peek n : KProg T _) (peek n) :=
  .lock (.read fun _ _ r => .unlock (.ret r))
theorem poke {n : NodeId} {f f' : NodeImpl T → NodeImpl T}
    (hf : ∀ s s' : NodeImpl T, s.Rehung D n s' → (f s).Rehung D n (f' s')) :
    Hung D Id (poke n f) (poke n f') := .lock (.write hf (.unlock (.ret rfl)))
theorem expectSame (o : Option α) (m : String) : Hung D Id (Prog.expect o m : KProg T α) (Prog.expect o m) := by
  cases o with
  | none => exact .panic m
  | some a => exact .ret rfl
theorem ofExcept (x : Except String α) : Hung D Id (ofExcept x : KProg T α) (ofExcept x) := by
  cases x with
  | error m => exact .panic m
  | ok a => exact .ret rfl

theorem forEach {f g : γ → KProg T Unit} (xs : List γ) (h : ∀ x ∈ xs, Hung D Id (f x) (g x)) :
    Hung D Id (forEach xs f) (forEach xs g) := by
  induction xs with
  | nil => exact .ret rfl
  | cons x xs ih => exact (h x (by simp)).bind fun _ _ _ => ih fun y hy => h y (List.mem_cons_of_mem _ hy)

theorem mapList {f g : γ → KProg T α} (xs : List γ) (h : ∀ x ∈ xs, Hung D Id (f x) (g x)) :
    Hung D Id (Prog.mapList xs f) (Prog.mapList xs g) := by
  induction xs with
  | nil => exact .ret rfl
  | cons x xs ih =>
    exact (h x (by simp)).seq fun a => (ih fun y hy => h y (List.mem_cons_of_mem _ hy)).seq fun as => .ret rfl

theorem filterList {f g : γ → KProg T Bool}
    (h : ∀ x, Hung D Id (f x) (g x)) (xs : List γ) : Hung D Id (filterList xs f) (filterList xs g) := by
  induction xs with
  | nil => exact .ret rfl
  | cons x xs ih => exact (h x).seq fun a => ih.seq fun as => .ret rfl

theorem findFirst {f g : γ → KProg T Bool}
    (h : ∀ x, Hung D Id (f x) (g x)) (xs : List γ) : Hung D Id (findFirst xs f) (findFirst xs g) := by
  induction xs with
  | nil => exact .ret rfl
  | cons x xs ih =>
    refine (h x).seq fun a => ?_
    cases a
    · exact ih
    · exact .ret rfl

theorem tryEach {f g : γ → KProg T (Except (KError T) Unit)} (h : ∀ x, Hung D Id (f x) (g x))
    (xs : List γ) : Hung D Id (tryEach xs f) (tryEach xs g) := by
  induction xs with
  | nil => exact .ret rfl
  | cons x xs ih =>
    refine (h x).seq fun a => ?_
    cases a with
    | error e => exact .ret rfl
    | ok u => exact ih

/-! ### nodes -/

theorem new (j : Joint T) : Hung D Id (Node.new j) (Node.new j) :=
  .alloc (fun _ => ⟨_, _, rfl, fun _ => rfl⟩) fun _ => .ret rfl
theorem joint (n : NodeId) : Hung D Id (Node.joint n : KProg T _) (Node.joint n) :=
  (peek n).bind fun s s' r => .ret (by obtain ⟨_, _, rfl, -⟩ := r; rfl)
theorem jointPosition (n : NodeId) : Hung D Id (Node.jointPosition n : KProg T _) (Node.jointPosition n) :=
  (peek n).bind fun s s' r => .ret (by obtain ⟨_, _, rfl, -⟩ := r; rfl)
theorem link (n : NodeId) : Hung D Id (Node.link n : KProg T _) (Node.link n) :=
  (peek n).bind fun s s' r => .ret (by obtain ⟨_, _, rfl, -⟩ := r; rfl)
theorem isRoot (n : NodeId) (ne : ¬ D n) : Hung D Id (Node.isRoot n : KProg T _) (Node.isRoot n) :=
  (peek n).bind fun s s' r => .ret (by obtain ⟨_, _, rfl, e⟩ := r; rw [Id, e ne])
theorem origin (n : NodeId) : Hung D Id (Node.origin n : KProg T _) (Node.origin n) :=
  (joint n).seq fun _ => .ret rfl
theorem worldTransform (n : NodeId) : Hung D Id (Node.worldTransform n : KProg T _) (Node.worldTransform n) :=
  (joint n).seq fun _ => .ret rfl
theorem worldVelocity (n : NodeId) : Hung D Id (Node.worldVelocity n : KProg T _) (Node.worldVelocity n) :=
  (joint n).seq fun _ => .ret rfl
theorem parent (n : NodeId) (ne : ¬ D n) : Hung D Id (Node.parent n : KProg T _) (Node.parent n) := by
  refine (doLock n).seq fun _ => (doRead n).bind fun s s' r => ?_
  obtain ⟨_, _, rfl, e⟩ := r
  dsimp only
  rw [e ne]
  cases s.parent with
  | none => exact (doUnlock n).seq fun _ => .ret rfl
  | some w => exact (doUpgrade w).seq fun b => (doUnlock n).seq fun _ => .ret rfl

theorem mimicParent (n : NodeId) : Hung D Id (Node.mimicParent n : KProg T _) (Node.mimicParent n) := by
  refine (doLock n).seq fun _ => (doRead n).bind fun s s' r => ?_
  obtain ⟨_, _, rfl, -⟩ := r
  dsimp only
  cases s.mimicParent with
  | none => exact (doUnlock n).seq fun _ => .ret rfl
  | some w => exact (doUpgrade w).seq fun b => (doUnlock n).seq fun _ => .ret rfl

theorem setParent (n p : NodeId) : Hung D Id (Node.setParent n p : KProg T _) (Node.setParent n p) :=
  seq (poke (by rintro s _ ⟨p, c, rfl, -⟩; exact ⟨_, _, rfl, fun _ => rfl⟩)) fun _ =>
    poke (by rintro s _ ⟨p, c, rfl, a⟩; exact ⟨_, _, rfl, a⟩)
theorem removeParent (n p : NodeId) : Hung D Id (Node.removeParent n p : KProg T _) (Node.removeParent n p) :=
  seq (poke (by rintro s _ ⟨p, c, rfl, -⟩; exact ⟨_, _, rfl, fun _ => rfl⟩)) fun _ =>
    poke (by rintro s _ ⟨p, c, rfl, a⟩; exact ⟨_, _, rfl, a⟩)
theorem setMimicParent (n p : NodeId) (m : Mimic T) :
    Hung D Id (Node.setMimicParent n p m) (Node.setMimicParent n p m) := by
  refine seq (poke ?_) fun _ => seq (poke ?_) fun _ => poke ?_
  all_goals rintro s _ ⟨p, c, rfl, a⟩; exact ⟨_, _, rfl, a⟩
theorem setLink (n : NodeId) (l : Option (Link T)) : Hung D Id (Node.setLink n l) (Node.setLink n l) :=
  poke (by rintro s _ ⟨p, c, rfl, a⟩; exact ⟨_, _, rfl, a⟩)
theorem setOrigin (n : NodeId) (t : Iso T) : Hung D Id (Node.setOrigin n t) (Node.setOrigin n t) :=
  poke (by rintro s _ ⟨p, c, rfl, a⟩; exact ⟨_, _, rfl, a⟩)
theorem setJointPositionClamped (n : NodeId) (x : T) :
    Hung D Id (Node.setJointPositionClamped n x) (Node.setJointPositionClamped n x) :=
  poke (by rintro s _ ⟨p, c, rfl, a⟩; exact ⟨_, _, rfl, a⟩)
theorem setJointPositionUnchecked (n : NodeId) (x : T) :
    Hung D Id (Node.setJointPositionUnchecked n x) (Node.setJointPositionUnchecked n x) :=
  poke (by rintro s _ ⟨p, c, rfl, a⟩; exact ⟨_, _, rfl, a⟩)
theorem setMimicChild (n : NodeId) (x : T) (c : NodeId) :
    Hung D Id (Node.setMimicChild n x c) (Node.setMimicChild n x c) := by
  refine (doLock c).seq fun _ => (doRead c).bind fun s s' r => ?_
  obtain ⟨_, _, rfl, -⟩ := r
  dsimp only
  cases s.mimic with
  | none => exact (joint n).seq fun j1 => (joint c).seq fun j2 => (doUnlock c).seq fun _ => .ret rfl
  | some m =>
    refine seq (doWrite ?_) fun _ => (doUnlock c).seq fun _ => .ret rfl
    rintro s _ ⟨p, c, rfl, a⟩; exact ⟨_, _, rfl, a⟩

theorem setJointPosition (n : NodeId) (x : T) :
    Hung D Id (Node.setJointPosition n x) (Node.setJointPosition n x) := by
  refine (doLock n).seq fun _ => (doRead n).bind fun s s' r => ?_
  obtain ⟨_, _, rfl, -⟩ := r
  dsimp only
  split
  · exact (doUnlock n).seq fun _ => .ret rfl
  · refine seq (doWrite ?_) fun _ => ?_
    · rintro s _ ⟨p, c, rfl, a⟩; exact ⟨_, _, rfl, a⟩
    · cases (s.joint.setJointPosition x).2 with
      | error e => exact (doUnlock n).seq fun _ => .ret rfl
      | ok => exact (tryEach (setMimicChild n x) s.mimicChildren).seq fun r => (doUnlock n).seq fun _ => .ret rfl

theorem parentWorldTransform (n : NodeId) (ne : ¬ D n) :
    Hung D Id (Node.parentWorldTransform n : KProg T _) (Node.parentWorldTransform n) :=
  (parent n ne).seq fun o => by
    cases o with
    | none => exact .ret rfl
    | some p => exact worldTransform p
theorem parentWorldVelocity (n : NodeId) (ne : ¬ D n) :
    Hung D Id (Node.parentWorldVelocity n : KProg T _) (Node.parentWorldVelocity n) :=
  (parent n ne).seq fun o => by
    cases o with
    | none => exact .ret rfl
    | some p => exact worldVelocity p

/-! ### chains -/

theorem fromNodes (ns : List NodeId) : Hung D Id (Chain.fromNodes ns : KProg T _) (Chain.fromNodes ns) := by
  refine seq (filterList (fun n => ?_) ns) fun _ => .ret rfl
  exact (joint n).seq fun _ => .ret rfl
variable (c : Chain)

theorem chainSetOrigin (t : Iso T) : Hung D Id (c.setOrigin t) (c.setOrigin t) := by
  rcases c with ⟨ns, ms, d⟩
  cases ns with
  | nil => exact .panic _
  | cons n ns => exact setOrigin n t
theorem chainOrigin : Hung D Id (c.origin : KProg T _) c.origin := by
  rcases c with ⟨ns, ms, d⟩
  cases ns with
  | nil => exact .panic _
  | cons n ns => exact origin n
theorem iterJoints : Hung D Id (c.iterJoints : KProg T _) c.iterJoints :=
  mapList c.movableNodes fun n _ => joint n

theorem iterLinks : Hung D Id (c.iterLinks : KProg T _) c.iterLinks := by
  refine seq (mapList c.nodes fun n _ => ?_) fun _ => .ret rfl
  refine (link n).seq fun l => ?_
  split
  · refine (doLock n).seq fun _ => (doRead n).bind fun s s' r => ?_
    obtain ⟨_, _, rfl, -⟩ := r
    exact (expectSame s.link _).seq fun _ => (doUnlock n).seq fun _ => .ret rfl
  · exact .ret rfl

theorem find (name : String) : Hung D Id (c.find name : KProg T _) (c.find name) := by
  refine findFirst (fun n => ?_) c.nodes
  exact (joint n).seq fun _ => .ret rfl

theorem jointPositions : Hung D Id (c.jointPositions : KProg T _) c.jointPositions := by
  refine mapList c.movableNodes fun n _ => ?_
  refine (doLock n).seq fun _ => (doRead n).bind fun s s' r => ?_
  obtain ⟨_, _, rfl, -⟩ := r
  exact seq (expectSame s.joint.jointPosition _) fun _ => (doUnlock n).seq fun _ => .ret rfl

theorem setJointPositions (xs : List T) : Hung D Id (c.setJointPositions xs) (c.setJointPositions xs) := by
  unfold Chain.setJointPositions
  split
  · exact .ret rfl
  · exact tryEach (fun p : NodeId × T => setJointPosition p.1 p.2) _
theorem setJointPositionsClamped (xs : List T) :
    Hung D Id (c.setJointPositionsClamped xs) (c.setJointPositionsClamped xs) :=
  forEach _ fun p _ => setJointPositionClamped p.1 p.2
theorem setJointPositionsUnchecked (xs : List T) :
    Hung D Id (c.setJointPositionsUnchecked xs) (c.setJointPositionsUnchecked xs) :=
  forEach _ fun p _ => setJointPositionUnchecked p.1 p.2

/-! ### kinematics -/

theorem updateTransform (n : NodeId) (ne : ¬ D n) :
    Hung D Id (Chain.updateTransform n : KProg T _) (Chain.updateTransform n) :=
  (parentWorldTransform n ne).seq fun o => (expectSame o _).seq fun t => (joint n).seq fun j =>
    seq (poke (by rintro s _ ⟨p, c, rfl, a⟩; exact ⟨_, _, rfl, a⟩)) fun _ => .ret rfl

theorem updateTransforms (av : c.Without D) : Hung D Id (c.updateTransforms : KProg T _) c.updateTransforms :=
  mapList c.nodes fun n m => updateTransform n (av n m)

theorem updateVelocity (n : NodeId) (ne : ¬ D n) : Hung D Id (Chain.updateVelocity n : KProg T _) (Chain.updateVelocity n) := by
  refine (parentWorldTransform n ne).seq fun o => (expectSame o _).seq fun t => (parentWorldVelocity n ne).seq fun ov =>
    (expectSame ov _).seq fun v => (doLock n).seq fun _ => (doRead n).bind fun s s' r => ?_
  obtain ⟨_, _, rfl, -⟩ := r
  refine seq ?_ fun w => (doUnlock n).seq fun _ =>
    seq (poke (by rintro s _ ⟨p, c, rfl, a⟩; exact ⟨_, _, rfl, a⟩)) fun _ => .ret rfl
  dsimp only
  cases s.joint.jointType with
  | fixed => exact .ret rfl
  | rotational a =>
    exact (parent n ne).seq fun o => (expectSame o _).seq fun p => (joint p).seq fun j =>
      (worldTransform n).seq fun o => (expectSame o _).seq fun w => (joint n).seq fun j2 =>
      (expectSame j2.jointVelocity _).seq fun q => .ret rfl
  | linear a =>
    exact (worldTransform n).seq fun o => (expectSame o _).seq fun w => (joint n).seq fun j2 =>
      (expectSame j2.jointVelocity _).seq fun q => .ret rfl

theorem updateVelocities (av : c.Without D) : Hung D Id (c.updateVelocities : KProg T _) c.updateVelocities :=
  (updateTransforms c av).bind fun _ _ _ => mapList c.nodes fun n m => updateVelocity n (av n m)

theorem updateLinkTransforms (av : c.Without D) : Hung D Id (c.updateLinkTransforms : KProg T _) c.updateLinkTransforms :=
  (updateTransforms c av).bind fun _ _ _ => forEach c.nodes fun n m =>
    (parentWorldTransform n (av n m)).seq fun o => (expectSame o _).seq fun t =>
      poke (by rintro s _ ⟨p, c, rfl, a⟩; exact ⟨_, _, rfl, a⟩)

theorem foldTransform (ns : List NodeId) (t : Iso T) :
    Hung D Id (Chain.foldTransform ns t) (Chain.foldTransform ns t) := by
  induction ns generalizing t with
  | nil => exact .ret rfl
  | cons n ns ih => exact (joint n).seq fun j => ih _
theorem endTransform : Hung D Id (c.endTransform : KProg T _) c.endTransform :=
  foldTransform c.nodes _

theorem jacobian (av : c.Without D) : Hung D Id (K.jacobian c : KProg T _) (K.jacobian c) := by
  refine (endTransform c).seq fun t => (updateTransforms c av).seq fun _ => mapList c.movableNodes fun n _ => ?_
  refine (doLock n).seq fun _ => (doRead n).bind fun s s' y => ?_
  obtain ⟨_, _, rfl, -⟩ := y
  exact seq (expectSame s.joint.worldTransform _) fun w => seq (ofExcept _) fun _ => (doUnlock n).seq fun _ => .ret rfl

theorem comLoop (ns : List NodeId) (a : ComAcc T) : Hung D Id (comLoop ns a) (comLoop ns a) := by
  induction ns generalizing a with
  | nil => exact .ret rfl
  | cons n ns ih =>
    refine (worldTransform n).seq fun o => ?_
    cases o with
    | none => exact ih _
    | some t => exact (link n).seq fun l => ih _

theorem centerOfMass (av : c.Without D) : Hung D Id (K.centerOfMass c : KProg T _) (K.centerOfMass c) :=
  (updateTransforms c av).seq fun _ => (comLoop c.nodes _).seq fun _ => .ret rfl

/-! ### inverse kinematics -/

variable (s : IkSolver T) (target : Iso T)

theorem solveOneLoop (av : c.Without D) (ops : List Bool) (ign : List Nat) :
    Hung D Id (K.solveOneLoop s c target ops ign) (K.solveOneLoop s c target ops ign) := by
  refine (jointPositions c).seq fun orig => (endTransform c).seq fun tn => (jacobian c av).seq fun jac => ?_
  refine (ofExcept _).seq fun x => ?_
  cases x with
  | error e' => exact .ret rfl
  | ok ps =>
    exact (setJointPositionsClamped c ps).seq fun _ => (endTransform c).seq fun t => .ret rfl

theorem tryLoop (av : c.Without D) (ops : List Bool) (ign : List Nat) (orig : List T) (left : Nat)
    (last : Option (V3 T × V3 T)) :
    Hung D Id (K.tryLoop s c target ops ign orig left last) (K.tryLoop s c target ops ign orig left last) := by
  induction left generalizing last with
  | zero =>
    refine (setJointPositions c orig).seq fun r => ?_
    cases r with
    | error e => exact .ret rfl
    | ok u => exact (expectSame last _).seq fun _ => .ret rfl
  | succ left ih =>
    refine (solveOneLoop c s target av ops ign).seq fun r => ?_
    cases r with
    | error e => exact .ret rfl
    | ok diff =>
      dsimp only
      split
      · exact (jointPositions c).seq fun xs => (setJointPositionsClamped c xs).seq fun _ => .ret rfl
      · exact ih _

theorem jointIndex (name : String) (ns : List NodeId) :
    Hung D Id (K.jointIndex name ns : KProg T _) (K.jointIndex name ns) := by
  induction ns with
  | nil => exact .ret rfl
  | cons n ns ih =>
    refine (joint n).seq fun j => ?_
    split
    · exact .ret rfl
    · exact ih.seq fun _ => .ret rfl

theorem ignoredIndices (names : List String) :
    Hung D Id (K.ignoredIndices c names : KProg T _) (K.ignoredIndices c names) := by
  induction names with
  | nil => exact .ret rfl
  | cons x xs ih =>
    refine (jointIndex x c.movableNodes).seq fun o => ?_
    cases o with
    | none => exact .ret rfl
    | some i => exact ih.seq fun r => by cases r <;> exact .ret rfl

theorem solveInternal (av : c.Without D) (k : Constraints) :
    Hung D Id (K.solveInternal s c target k) (K.solveInternal s c target k) := by
  refine (jointPositions c).seq fun orig => ?_
  split
  · exact .panic _
  · dsimp only
    split
    · exact .ret rfl
    · refine (ignoredIndices c _).seq fun r => ?_
      cases r with
      | error e => exact .ret rfl
      | ok is => exact tryLoop c s target av _ _ _ _ _

theorem solveWithConstraints (av : c.Without D) (k : Constraints) :
    Hung D Id (K.solveWithConstraints s c target k) (K.solveWithConstraints s c target k) := by
  refine (jointPositions c).seq fun orig => (solveInternal c s target av k).seq fun r => ?_
  cases r with
  | ok u => exact .ret rfl
  | error e => exact (setJointPositions c orig).seq fun r => by cases r <;> exact .ret rfl

/-! ### calls and clients -/

theorem same : {β : Type} → (c : Call T β) → c.Without D → Hung D Id c.prog c.prog
  | _, .newNode j, _ => new j
  | _, .setParent n p, _ => setParent n p
  | _, .removeParent n p, _ => removeParent n p
  | _, .setMimicParent n p m, _ => setMimicParent n p m
  | _, .setLink n l, _ => setLink n l
  | _, .setOrigin n t, _ => setOrigin n t
  | _, .setJointPosition n x, _ => setJointPosition n x
  | _, .setJointPositionClamped n x, _ => setJointPositionClamped n x
  | _, .setJointPositionUnchecked n x, _ => setJointPositionUnchecked n x
  | _, .joint n, _ => joint n
  | _, .jointPosition n, _ => jointPosition n
  | _, .parent n, ne => parent n ne
  | _, .mimicParent n, _ => mimicParent n
  | _, .children _, no => no.elim
  | _, .link n, _ => link n
  | _, .isRoot n, ne => isRoot n ne
  | _, .isEnd _, no => no.elim
  | _, .origin n, _ => origin n
  | _, .worldTransform n, _ => worldTransform n
  | _, .worldVelocity n, _ => worldVelocity n
  | _, .iterAncestors _ _, no => no.elim
  | _, .iterDescendants _ _, no => no.elim
  | _, .fromNodes ns, _ => fromNodes ns
  | _, .fromRoot _ _, no => no.elim
  | _, .fromEnd _ _, no => no.elim
  | _, .fromEndToRoot _ _ _, no => no.elim
  | _, .chainSetOrigin c t, _ => chainSetOrigin c t
  | _, .chainOrigin c, _ => chainOrigin c
  | _, .iterJoints c, _ => iterJoints c
  | _, .iterLinks c, _ => iterLinks c
  | _, .find c name, _ => find c name
  | _, .jointPositions c, _ => jointPositions c
  | _, .setJointPositions c xs, _ => setJointPositions c xs
  | _, .setJointPositionsClamped c xs, _ => setJointPositionsClamped c xs
  | _, .setJointPositionsUnchecked c xs, _ => setJointPositionsUnchecked c xs
  | _, .updateTransforms c, av => updateTransforms c av
  | _, .updateVelocities c, av => updateVelocities c av
  | _, .updateLinkTransforms c, av => updateLinkTransforms c av
  | _, .cloneChain _ _, no => no.elim
  | _, .tryNew _, no => no.elim
  | _, .endTransform c, _ => endTransform c
  | _, .display _ _, no => no.elim
  | _, .jacobian c, av => jacobian c av
  | _, .centerOfMass c, av => centerOfMass c av
  | _, .solve s c t cs, av => solveWithConstraints c s t av cs

theorem client {p : Client T α} (r : p.Without D) : Hung D Id p.prog p.prog := by
  induction r with
  | done a => exact .ret rfl
  | call k r _ ih => exact (same _ r).seq fun a => ih a

/-- programs that do the same but for what hangs where, one by one -/
inductive All (D : NodeId → Prop) : List (KProg T α) → List (KProg T α) → Prop
  | nil : All D [] []
  | cons {p q ps qs} (h : Hung D Id p q) (t : All D ps qs) : All D (p :: ps) (q :: qs)

theorem All.get {ps qs : List (KProg T α)} (a : All D ps qs) (i : Nat) {p : KProg T α} (e : ps[i]? = some p) :
    ∃ q, qs[i]? = some q ∧ Hung D Id p q := by
  induction a generalizing i with
  | nil => simp at e
  | cons h t ih =>
    cases i with
    | zero => simp at e; subst e; exact ⟨_, rfl, h⟩
    | succ i => exact ih i (by simpa using e)

theorem All.back {ps qs : List (KProg T α)} (a : All D ps qs) (i : Nat) {q : KProg T α} (e : qs[i]? = some q) :
    ∃ p, ps[i]? = some p ∧ Hung D Id p q := by
  induction a generalizing i with
  | nil => simp at e
  | cons h t ih =>
    cases i with
    | zero => simp at e; subst e; exact ⟨_, rfl, h⟩
    | succ i => exact ih i (by simpa using e)

theorem All.set {ps qs : List (KProg T α)} (a : All D ps qs) (i : Nat) {p q : KProg T α} (h : Hung D Id p q) :
    All D (ps.set i p) (qs.set i q) := by
  induction a generalizing i with
  | nil => exact .nil
  | cons h' t ih =>
    cases i with
    | zero => exact .cons h t
    | succ i => exact .cons h' (ih i)

end Hung

/-- sequencing outcomes -/
theorem HangOutcome.bind {Q : α → β → Prop} {R : γ → δ → Prop} {p : KProg T α} {q : KProg T β} {h g : KHeap T}
    (o : HangOutcome D Q (run p h) (run q g)) {f : α → KProg T γ} {k : β → KProg T δ}
    (next : ∀ a b h' g', run p h = .ok a h' → Q a b → Rehung D h' g' →
      HangOutcome D R (run (f a) h') (run (k b) g')) :
    HangOutcome D R (run (p >>= f) h) (run (q >>= k) g) := by
  rw [run_bind, run_bind]
  cases e : run p h <;> cases e' : run q g <;> rw [e, e'] at o <;> simp only [HangOutcome] at o
  · exact next _ _ _ _ e o.1 o.2
  · exact o
  · exact o
  · trivial

end K
