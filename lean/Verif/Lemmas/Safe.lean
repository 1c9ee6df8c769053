import Verif.Spec.Api
import Verif.Lemmas.Run
/-!
# Invariants of programs

`Safe lo P Q p`: if every node `n` satisfies `P n`, then every write of `p` keeps it so and a returned
value satisfies `Q`; ids `≥ lo` may be allocated.  This is a property of the program text; it gives invariance along `run` and along
every interleaving.
-/

set_option linter.unusedSectionVars false

namespace K
open Prog

variable {S α β γ δ ε : Type}

/-- see the file comment -/
def Safe (lo : Nat) (P : NodeId → S → Prop) (Q : α → Prop) : Prog S α → Prop
  | .ret a => Q a
  | .lock _ k => Safe lo P Q k
  | .unlock _ k => Safe lo P Q k
  | .read n k => ∀ s, P n s → Safe lo P Q (k s)
  | .write n f k => (∀ s, P n s → P n (f s)) ∧ Safe lo P Q k
  | .upgrade _ k => ∀ b, Safe lo P Q (k b)
  | .alloc s k => ∀ m, lo ≤ m → P m s ∧ Safe lo P Q (k m)
  | .panic _ => True
  | .diverge => True

variable {lo : Nat} {P : NodeId → S → Prop}

theorem Safe.mono {Q Q' : α → Prop} {p : Prog S α} (h : Safe lo P Q p) (i : ∀ a, Q a → Q' a) :
    Safe lo P Q' p := by
  induction p with
  | ret a => exact i a h
  | lock n k ih => exact ih h
  | unlock n k ih => exact ih h
  | read n k ih => exact fun s hs => ih s (h s hs)
  | write n f k ih => exact ⟨h.1, ih h.2⟩
  | upgrade n k ih => exact fun b => ih b (h b)
  | alloc s k ih => exact fun m hm => ⟨(h m hm).1, ih m (h m hm).2⟩
  | panic m => trivial
  | diverge => trivial

theorem Safe.bind {Q : α → Prop} {R : β → Prop} {p : Prog S α} {f : α → Prog S β}
    (h : Safe lo P Q p) (hf : ∀ a, Q a → Safe lo P R (f a)) : Safe lo P R (p >>= f) := by
  show Safe lo P R (p.bind f)
  induction p with
  | ret a => exact hf a h
  | lock n k ih => exact ih h
  | unlock n k ih => exact ih h
  | read n k ih => exact fun s hs => ih s (h s hs)
  | write n f k ih => exact ⟨h.1, ih h.2⟩
  | upgrade n k ih => exact fun b => ih b (h b)
  | alloc s k ih => exact fun m hm => ⟨(h m hm).1, ih m (h m hm).2⟩
  | panic m => trivial
  | diverge => trivial

/-- all nodes satisfy the invariant -/
def HeapInv (lo : Nat) (P : NodeId → S → Prop) (h : Heap S) : Prop :=
  lo ≤ h.next ∧ ∀ n, P n (h.get n)

theorem HeapInv.modify {h : Heap S} (i : HeapInv lo P h) {n : NodeId} {f : S → S}
    (w : ∀ s, P n s → P n (f s)) : HeapInv lo P (h.modify n f) := by
  refine ⟨i.1, fun m => ?_⟩; simp only [Heap.get_modify]; split
  · subst_vars; exact w _ (i.2 _)
  · exact i.2 m
theorem HeapInv.push {h : Heap S} (i : HeapInv lo P h) {s : S} (w : P h.next s) :
    HeapInv lo P (h.push s) := by
  refine ⟨Nat.le_succ_of_le i.1, fun m => ?_⟩; simp only [Heap.push]; split
  · subst_vars; exact w
  · exact i.2 m

/-- what an outcome must satisfy -/
def Res.Sat (lo : Nat) (P : NodeId → S → Prop) (Q : α → Prop) : Res S α → Prop
  | .ok a h => Q a ∧ HeapInv lo P h
  | .panic _ h => HeapInv lo P h
  | .blocked _ h => HeapInv lo P h
  | .diverged => True

theorem run_safe {Q : α → Prop} {p : Prog S α} (sp : Safe lo P Q p) {h : Heap S}
    (i : HeapInv lo P h) : (run p h).Sat lo P Q := by
  induction p generalizing h with
  | ret a => exact ⟨sp, i⟩
  | lock n k ih =>
    simp only [run]; split
    · exact i
    · exact ih sp i
  | unlock n k ih => exact ih sp i
  | read n k ih => exact ih _ (sp _ (i.2 n)) i
  | write n f k ih => exact ih sp.2 (i.modify sp.1)
  | upgrade n k ih => exact ih _ (sp _) i
  | alloc s k ih => exact ih _ (sp _ i.1).2 (i.push (sp _ i.1).1)
  | panic m => exact i
  | diverge => trivial

theorem run_safe_ok {Q : α → Prop} {p : Prog S α} (sp : Safe lo P Q p) {h h' : Heap S} {a : α}
    (i : HeapInv lo P h) (e : run p h = .ok a h') : Q a ∧ HeapInv lo P h' := by
  have := run_safe sp i; rw [e] at this; exact this

theorem step1_safe {Q : α → Prop} {p p' : Prog S α} {h h' : Heap S} (sp : Safe lo P Q p)
    (i : HeapInv lo P h) (e : step1 p h = some (p', h')) : Safe lo P Q p' ∧ HeapInv lo P h' := by
  cases p with
  | ret a => cases e
  | lock n k =>
    simp only [step1] at e; split at e
    · cases e
    · cases e; exact ⟨sp, i⟩
  | unlock n k => cases e; exact ⟨sp, i⟩
  | read n k => cases e; exact ⟨sp _ (i.2 n), i⟩
  | write n f k => cases e; exact ⟨sp.2, i.modify sp.1⟩
  | upgrade n k => cases e; exact ⟨sp _, i⟩
  | alloc s k => cases e; exact ⟨(sp _ i.1).2, i.push (sp _ i.1).1⟩
  | panic m => cases e
  | diverge => cases e; exact ⟨trivial, i⟩

theorem steps_safe {Q : α → Prop} {c d : Config S α} (st : DSteps c d)
    (sp : ∀ p ∈ c.threads, Safe lo P Q p) (i : HeapInv lo P c.heap) :
    (∀ p ∈ d.threads, Safe lo P Q p) ∧ HeapInv lo P d.heap := by
  induction st with
  | refl => exact ⟨sp, i⟩
  | tail h s ih =>
    obtain ⟨sp', i'⟩ := ih
    cases s with
    | free F => exact ⟨sp', i'⟩
    | thread s =>
      obtain ⟨j, p, p', h', hi, hs⟩ := s
      have hp := sp' p (List.mem_of_getElem? hi)
      obtain ⟨a, b⟩ := step1_safe hp i' hs
      refine ⟨fun q hq => ?_, b⟩
      rcases List.mem_or_eq_of_mem_set hq with h | h
      · exact sp' q h
      · exact h ▸ a

/-! ## combinators -/

theorem safe_ret {Q : α → Prop} {a : α} (h : Q a) : Safe lo P Q (.ret a) := h
theorem safe_pure {Q : α → Prop} {a : α} (h : Q a) : Safe lo P Q (pure a : Prog S α) := h
theorem safe_doLock (n : NodeId) : Safe lo P (fun _ => True) (doLock n) := trivial
theorem safe_doUnlock (n : NodeId) : Safe lo P (fun _ => True) (doUnlock n) := trivial
theorem safe_doRead (n : NodeId) : Safe lo P (P n) (doRead n) := fun _ h => h
theorem safe_doWrite {n : NodeId} {f : S → S} (h : ∀ s, P n s → P n (f s)) :
    Safe lo P (fun _ => True) (doWrite n f) := ⟨h, trivial⟩
theorem safe_doUpgrade (n : NodeId) : Safe lo P (fun _ => True) (doUpgrade n) := fun _ => trivial
theorem safe_doAlloc {s : S} (h : ∀ m, lo ≤ m → P m s) : Safe lo P (fun m => lo ≤ m) (doAlloc s) :=
  fun m hm => ⟨h m hm, hm⟩
theorem safe_peek (n : NodeId) : Safe lo P (P n) (peek n) := fun _ h => h
theorem safe_poke {n : NodeId} {f : S → S} (h : ∀ s, P n s → P n (f s)) :
    Safe lo P (fun _ => True) (poke n f) := ⟨h, trivial⟩
theorem safe_expect {Q : α → Prop} {o : Option α} {m : String} (h : ∀ a, o = some a → Q a) :
    Safe lo P Q (expect o m) := by
  cases o with
  | none => trivial
  | some a => exact h a rfl
theorem safe_ofExcept {Q : α → Prop} {o : Except String α} (h : ∀ a, o = .ok a → Q a) :
    Safe lo P Q (ofExcept o) := by
  cases o with
  | error => trivial
  | ok a => exact h a rfl

theorem safe_forEach {xs : List γ} {f : γ → Prog S Unit}
    (h : ∀ x ∈ xs, Safe lo P (fun _ => True) (f x)) : Safe lo P (fun _ => True) (forEach xs f) := by
  induction xs with
  | nil => trivial
  | cons x xs ih =>
    exact (h x (by simp)).bind fun _ _ => ih fun y hy => h y (by simp [hy])
theorem safe_mapList {Q : δ → Prop} {xs : List γ} {f : γ → Prog S δ}
    (h : ∀ x ∈ xs, Safe lo P Q (f x)) : Safe lo P (fun l => ∀ y ∈ l, Q y) (mapList xs f) := by
  induction xs with
  | nil => exact fun y hy => by cases hy
  | cons x xs ih =>
    refine (h x (by simp)).bind fun y hy => ?_
    refine (ih fun z hz => h z (by simp [hz])).bind fun ys hys => ?_
    exact safe_pure (by simpa using ⟨hy, hys⟩)
theorem safe_filterList {xs : List γ} {f : γ → Prog S Bool}
    (h : ∀ x ∈ xs, Safe lo P (fun _ => True) (f x)) :
    Safe lo P (fun l => ∀ y ∈ l, y ∈ xs) (filterList xs f) := by
  induction xs with
  | nil => exact fun y hy => by cases hy
  | cons x xs ih =>
    refine (h x (by simp)).bind fun y hy => ?_
    refine (ih fun z hz => h z (by simp [hz])).bind fun ys hys => ?_
    refine safe_pure ?_
    intro z hz
    split at hz
    · rcases List.mem_cons.1 hz with h | h
      · simp [h]
      · simp [hys z h]
    · simp [hys z hz]
theorem safe_tryEach {xs : List γ} {f : γ → Prog S (Except ε Unit)}
    (h : ∀ x ∈ xs, Safe lo P (fun _ => True) (f x)) : Safe lo P (fun _ => True) (tryEach xs f) := by
  induction xs with
  | nil => trivial
  | cons x xs ih =>
    refine (h x (by simp)).bind fun r _ => ?_
    cases r with
    | error e => exact safe_pure trivial
    | ok u => exact ih fun y hy => h y (by simp [hy])
theorem safe_findFirst {xs : List γ} {f : γ → Prog S Bool}
    (h : ∀ x ∈ xs, Safe lo P (fun _ => True) (f x)) :
    Safe lo P (fun o => ∀ y, o = some y → y ∈ xs) (findFirst xs f) := by
  induction xs with
  | nil => exact fun y hy => by cases hy
  | cons x xs ih =>
    refine (h x (by simp)).bind fun b _ => ?_
    cases b with
    | true => exact safe_pure (by simp)
    | false =>
      exact (ih fun y hy => h y (by simp [hy])).mono fun o ho y hy => by simp [ho y hy]

theorem Safe.true {Q : α → Prop} {p : Prog S α} (h : Safe lo P Q p) : Safe lo P (fun _ => True) p :=
  h.mono fun _ _ => trivial

/-! ## the methods -/
variable {T : Type} [Scalar T] {P : NodeId → NodeImpl T → Prop}

theorem safe_Node_joint (n : NodeId) :
    Safe lo P (fun j => ∃ s, P n s ∧ s.joint = j) (Node.joint n : KProg T _) :=
  (safe_peek n).bind fun s hs => safe_pure ⟨s, hs, rfl⟩
theorem safe_Node_jointPosition (n : NodeId) :
    Safe lo P (fun _ => True) (Node.jointPosition n : KProg T _) :=
  (safe_peek n).bind fun _ _ => safe_pure trivial
theorem safe_Node_children (n : NodeId) :
    Safe lo P (fun _ => True) (Node.children n : KProg T _) :=
  (safe_peek n).bind fun _ _ => safe_pure trivial
theorem safe_Node_isRoot (n : NodeId) : Safe lo P (fun _ => True) (Node.isRoot n : KProg T _) :=
  (safe_peek n).bind fun _ _ => safe_pure trivial
theorem safe_Node_isEnd (n : NodeId) : Safe lo P (fun _ => True) (Node.isEnd n : KProg T _) :=
  (safe_peek n).bind fun _ _ => safe_pure trivial
theorem safe_Node_link (n : NodeId) : Safe lo P (fun _ => True) (Node.link n : KProg T _) :=
  (safe_peek n).bind fun _ _ => safe_pure trivial
theorem safe_Node_origin (n : NodeId) : Safe lo P (fun _ => True) (Node.origin n : KProg T _) :=
  (safe_Node_joint n).bind fun _ _ => safe_pure trivial
theorem safe_Node_worldTransform (n : NodeId) :
    Safe lo P (fun _ => True) (Node.worldTransform n : KProg T _) :=
  (safe_Node_joint n).bind fun _ _ => safe_pure trivial
theorem safe_Node_worldVelocity (n : NodeId) :
    Safe lo P (fun _ => True) (Node.worldVelocity n : KProg T _) :=
  (safe_Node_joint n).bind fun _ _ => safe_pure trivial
theorem safe_Node_parent (n : NodeId) : Safe lo P (fun _ => True) (Node.parent n : KProg T _) := by
  refine (safe_doLock n).bind fun _ _ => (safe_doRead n).bind fun s _ => ?_
  cases s.parent with
  | none => trivial
  | some w => exact fun _ => trivial
theorem safe_Node_mimicParent (n : NodeId) :
    Safe lo P (fun _ => True) (Node.mimicParent n : KProg T _) := by
  refine (safe_doLock n).bind fun _ _ => (safe_doRead n).bind fun s _ => ?_
  cases s.mimicParent with
  | none => trivial
  | some w => exact fun _ => trivial
theorem safe_Node_parentWorldTransform (n : NodeId) :
    Safe lo P (fun _ => True) (Node.parentWorldTransform n : KProg T _) := by
  refine (safe_Node_parent n).bind fun o _ => ?_
  cases o with
  | none => trivial
  | some p => exact safe_Node_worldTransform p
theorem safe_Node_parentWorldVelocity (n : NodeId) :
    Safe lo P (fun _ => True) (Node.parentWorldVelocity n : KProg T _) := by
  refine (safe_Node_parent n).bind fun o _ => ?_
  cases o with
  | none => trivial
  | some p => exact safe_Node_worldVelocity p

/-- `set_joint_position` on node `n` keeps the invariant of `n` and of the mimic children it can have -/
structure SetOK (P : NodeId → NodeImpl T → Prop) (n : NodeId) : Prop where
  self : ∀ y s, P n s → P n { s with joint := (s.joint.setJointPosition y).1 }
  mimic : ∀ s, P n s → ∀ c ∈ s.mimicChildren, ∀ y s', P c s' →
    P c { s' with joint := (s'.joint.setJointPosition y).1 }

theorem SetOK.all {P : NodeId → NodeImpl T → Prop}
    (h : ∀ c y s, P c s → P c { s with joint := (s.joint.setJointPosition y).1 }) (n : NodeId) :
    SetOK P n := ⟨h n, fun _ _ c _ => h c⟩

theorem safe_Node_setJointPosition (n : NodeId) (x : T) (h : SetOK P n) :
    Safe lo P (fun _ => True) (Node.setJointPosition n x) := by
  refine (safe_doLock n).bind fun _ _ => (safe_doRead n).bind fun s hs => ?_
  split
  · trivial
  · refine (safe_doWrite (h.self x)).bind fun _ _ => ?_
    split
    · trivial
    · refine (safe_tryEach fun c hc => ?_).bind fun _ _ => trivial
      refine (safe_doLock c).bind fun _ _ => (safe_doRead c).bind fun sc _ => ?_
      split
      · exact (safe_doWrite fun s' hs' => h.mimic s hs c hc _ s' hs').bind fun _ _ => trivial
      · exact (safe_Node_joint n).bind fun _ _ => (safe_Node_joint c).bind fun _ _ => trivial

theorem safe_ancestors (fuel : Nat) (o : Option NodeId) :
    Safe lo P (fun _ => True) (ancestors fuel o : KProg T _) := by
  induction fuel generalizing o with
  | zero => cases o <;> trivial
  | succ k ih =>
    cases o with
    | none => trivial
    | some n => exact (safe_Node_parent n).bind fun p _ => (ih p).bind fun _ _ => trivial
theorem safe_ancestorsUntil (stop : NodeId) (fuel : Nat) (o : Option NodeId) :
    Safe lo P (fun _ => True) (ancestorsUntil stop fuel o : KProg T _) := by
  induction fuel generalizing o with
  | zero => cases o <;> trivial
  | succ k ih =>
    cases o with
    | none => trivial
    | some n =>
      refine (safe_Node_parent n).bind fun p _ => ?_
      split
      · trivial
      · exact (ih p).bind fun _ _ => trivial
theorem safe_descendants (fuel : Nat) (st : List NodeId) :
    Safe lo P (fun _ => True) (descendants fuel st : KProg T _) := by
  induction fuel generalizing st with
  | zero => cases st <;> trivial
  | succ k ih =>
    cases st with
    | nil => trivial
    | cons n st => exact (safe_Node_children n).bind fun p _ => (ih _).bind fun _ _ => trivial

namespace Chain
theorem safe_fromNodes (ns : List NodeId) :
    Safe lo P (fun _ => True) (fromNodes ns : KProg T _) := by
  refine (safe_filterList fun n _ => ?_).bind fun _ _ => trivial
  exact (safe_Node_joint n).bind fun _ _ => trivial
theorem safe_fromRoot (fuel : Nat) (n : NodeId) :
    Safe lo P (fun _ => True) (fromRoot fuel n : KProg T _) :=
  (safe_descendants _ _).bind fun _ _ => safe_fromNodes _
theorem safe_fromEnd (fuel : Nat) (n : NodeId) :
    Safe lo P (fun _ => True) (fromEnd fuel n : KProg T _) :=
  (safe_ancestors _ _).bind fun _ _ => safe_fromNodes _
theorem safe_fromEndToRoot (fuel : Nat) (n r : NodeId) :
    Safe lo P (fun _ => True) (fromEndToRoot fuel n r : KProg T _) :=
  (safe_ancestorsUntil _ _ _).bind fun _ _ => safe_fromNodes _
theorem safe_iterJoints (c : Chain) : Safe lo P (fun _ => True) (c.iterJoints : KProg T _) :=
  (safe_mapList fun n _ => (safe_Node_joint n).true).true
theorem safe_iterLinks (c : Chain) : Safe lo P (fun _ => True) (c.iterLinks : KProg T _) := by
  refine (safe_mapList (Q := fun _ => True) fun n _ => ?_).bind fun _ _ => trivial
  refine (safe_Node_link n).bind fun o _ => ?_
  split
  · exact (safe_doLock n).bind fun _ _ => (safe_doRead n).bind fun _ _ =>
      (safe_expect (Q := fun _ => True) fun _ _ => trivial).bind fun _ _ => trivial
  · trivial
theorem safe_find (c : Chain) (s : String) : Safe lo P (fun _ => True) (c.find s : KProg T _) :=
  Safe.true (safe_findFirst (fun n _ => Safe.bind (safe_Node_joint n) fun _ _ => safe_pure trivial))
theorem safe_jointPositions' (c : Chain) :
    Safe lo P (fun _ => True) (c.jointPositions : KProg T _) := by
  refine (safe_mapList (Q := fun _ => True) fun n _ => ?_).true
  exact (safe_doLock n).bind fun _ _ => (safe_doRead n).bind fun _ _ =>
    (safe_expect (Q := fun _ => True) fun _ _ => trivial).bind fun _ _ => trivial
theorem safe_setJointPositions (c : Chain) (xs : List T)
    (h : ∀ n ∈ c.movableNodes, SetOK P n) :
    Safe lo P (fun _ => True) (c.setJointPositions xs) := by
  unfold setJointPositions; split
  · trivial
  · exact safe_tryEach fun jp hjp => safe_Node_setJointPosition _ _ (h _ (List.of_mem_zip hjp).1)
theorem safe_setJointPositionsClamped (c : Chain) (xs : List T)
    (h : ∀ n ∈ c.movableNodes, ∀ y ∈ xs, ∀ s, P n s →
      P n { s with joint := s.joint.setJointPositionClamped y }) :
    Safe lo P (fun _ => True) (c.setJointPositionsClamped xs) :=
  safe_forEach fun jp hjp => safe_poke
    (h jp.1 (List.of_mem_zip hjp).1 jp.2 (List.of_mem_zip hjp).2)
theorem safe_setJointPositionsUnchecked (c : Chain) (xs : List T)
    (h : ∀ n ∈ c.movableNodes, ∀ y ∈ xs, ∀ s, P n s →
      P n { s with joint := s.joint.setJointPositionUnchecked y }) :
    Safe lo P (fun _ => True) (c.setJointPositionsUnchecked xs) :=
  safe_forEach fun jp hjp => safe_poke
    (h jp.1 (List.of_mem_zip hjp).1 jp.2 (List.of_mem_zip hjp).2)
theorem safe_updateTransforms (c : Chain)
    (h : ∀ n ∈ c.nodes, ∀ t s, P n s → P n { s with joint := s.joint.setWorldTransform t }) :
    Safe lo P (fun _ => True) (c.updateTransforms : KProg T _) := by
  refine (safe_mapList (Q := fun _ => True) fun n hn => ?_).true
  refine (safe_Node_parentWorldTransform n).bind fun _ _ => ?_
  refine (safe_expect (Q := fun _ => True) fun _ _ => trivial).bind fun t _ => ?_
  refine (safe_Node_joint n).bind fun j _ => ?_
  exact (safe_poke fun s hs => h n hn _ s hs).bind fun _ _ => trivial
theorem safe_updateVelocities (c : Chain)
    (h : ∀ n ∈ c.nodes, ∀ t s, P n s → P n { s with joint := s.joint.setWorldTransform t })
    (h' : ∀ n ∈ c.nodes, ∀ t s, P n s → P n { s with joint := s.joint.setWorldVelocity t }) :
    Safe lo P (fun _ => True) (c.updateVelocities : KProg T _) := by
  refine (safe_updateTransforms c h).bind fun _ _ => ?_
  refine (safe_mapList (Q := fun _ => True) fun n hn => ?_).true
  refine (safe_Node_parentWorldTransform n).bind fun _ _ => ?_
  refine (safe_expect (Q := fun _ => True) fun _ _ => trivial).bind fun t _ => ?_
  refine (safe_Node_parentWorldVelocity n).bind fun _ _ => ?_
  refine (safe_expect (Q := fun _ => True) fun _ _ => trivial).bind fun t _ => ?_
  refine (safe_doLock n).bind fun _ _ => (safe_doRead n).bind fun s _ => ?_
  have fin : ∀ v, Safe lo P (fun _ => True) (do
      doUnlock n
      poke n fun s => { s with joint := s.joint.setWorldVelocity v }
      return v : KProg T (Velocity T)) := fun v =>
    (safe_doUnlock n).bind fun _ _ => (safe_poke fun s hs => h' n hn _ s hs).bind fun _ _ => trivial
  refine Safe.bind (Q := fun _ => True) ?_ fun v _ => fin v
  split
  · trivial
  · refine (safe_Node_parent n).bind fun _ _ => ?_
    refine (safe_expect (Q := fun _ => True) fun _ _ => trivial).bind fun t _ => ?_
    refine (safe_Node_joint _).bind fun j _ => ?_
    refine (safe_Node_worldTransform _).bind fun j _ => ?_
    refine (safe_expect (Q := fun _ => True) fun _ _ => trivial).bind fun t _ => ?_
    refine (safe_Node_joint _).bind fun j _ => ?_
    exact (safe_expect (Q := fun _ => True) fun _ _ => trivial).bind fun t _ => trivial
  · refine (safe_Node_worldTransform _).bind fun j _ => ?_
    refine (safe_expect (Q := fun _ => True) fun _ _ => trivial).bind fun t _ => ?_
    refine (safe_Node_joint _).bind fun j _ => ?_
    exact (safe_expect (Q := fun _ => True) fun _ _ => trivial).bind fun t _ => trivial
theorem safe_updateLinkTransforms (c : Chain)
    (h : ∀ n ∈ c.nodes, ∀ t s, P n s → P n { s with joint := s.joint.setWorldTransform t })
    (h' : ∀ n ∈ c.nodes, ∀ t s, P n s → P n { s with link := s.link.map (placeLink t) }) :
    Safe lo P (fun _ => True) (c.updateLinkTransforms : KProg T _) := by
  refine (safe_updateTransforms c h).bind fun _ _ => ?_
  refine safe_forEach fun n hn => ?_
  refine (safe_Node_parentWorldTransform n).bind fun _ _ => ?_
  refine (safe_expect (Q := fun _ => True) fun _ _ => trivial).bind fun t _ => ?_
  exact safe_poke fun s hs => h' n hn _ s hs
theorem safe_foldTransform (ns : List NodeId) (t : Iso T) :
    Safe lo P (fun _ => True) (foldTransform ns t) := by
  induction ns generalizing t with
  | nil => trivial
  | cons n ns ih => exact (safe_Node_joint n).bind fun _ _ => ih _
theorem safe_endTransform (c : Chain) : Safe lo P (fun _ => True) (c.endTransform : KProg T _) :=
  safe_foldTransform _ _
theorem safe_tryNew (c : Chain) : Safe lo P (fun _ => True) (c.tryNew : KProg T _) := by
  unfold tryNew; split
  · trivial
  · refine Safe.bind (safe_findFirst fun n _ => ?_) fun _ _ => safe_pure trivial
    exact (safe_Node_children n).bind fun _ _ => safe_pure trivial
theorem safe_fmtWithIndentLevel (c : Chain) (fuel level : Nat) (n : NodeId) :
    Safe lo P (fun _ => True) (c.fmtWithIndentLevel fuel level n : KProg T _) := by
  induction fuel generalizing level n with
  | zero => trivial
  | succ k ih =>
    unfold fmtWithIndentLevel
    refine Safe.bind (Q := fun _ => True) ?_ fun _ _ => ?_
    · split
      · exact (safe_peek n).bind fun _ _ => trivial
      · trivial
    · refine (safe_doLock n).bind fun _ _ => (safe_doRead n).bind fun s _ => ?_
      exact (safe_mapList (Q := fun _ => True) fun m _ => ih _ _).bind fun _ _ => trivial
theorem safe_display (c : Chain) (fuel : Nat) :
    Safe lo P (fun _ => True) (c.display fuel : KProg T _) := by
  unfold display; split
  · trivial
  · exact (safe_fmtWithIndentLevel _ _ _ _).bind fun _ _ => trivial

/-- all writes `clone` can make: to nodes it has allocated -/
theorem safe_clone (c : Chain) (fuel : Nat)
    (h0 : ∀ n s, P n s → ∀ m, lo ≤ m → P m (NodeImpl.fresh s.joint))
    (h1 : ∀ n, lo ≤ n → ∀ l s, P n s → P n { s with link := l })
    (h2 : ∀ n, lo ≤ n → ∀ p s, P n s → P n { s with parent := some p })
    (h3 : ∀ n, lo ≤ n → ∀ c, lo ≤ c → ∀ s, P n s → P n { s with children := s.children ++ [c] })
    (h4 : ∀ n, lo ≤ n → ∀ p s, P n s → P n { s with mimicParent := some p })
    (h5 : ∀ n, lo ≤ n → ∀ c, lo ≤ c → ∀ s, P n s → P n { s with mimicChildren := s.mimicChildren ++ [c] })
    (h6 : ∀ n, lo ≤ n → ∀ m s, P n s → P n { s with mimic := some m }) :
    Safe lo P (fun _ => True) (c.clone fuel : KProg T _) := by
  unfold clone; split
  · trivial
  · refine (safe_Node_isRoot _).bind fun b _ => ?_
    split
    · trivial
    · refine (safe_mapList (Q := fun m => lo ≤ m) fun n _ => ?_).bind fun ns hns => ?_
      · refine (safe_doLock n).bind fun _ _ => (safe_doRead n).bind fun s hs => ?_
        refine (safe_doAlloc (h0 n s hs)).bind fun m hm => ?_
        refine (safe_doUnlock n).bind fun _ _ => (safe_doLock n).bind fun _ _ => ?_
        refine (safe_doRead n).bind fun s _ => ?_
        refine (safe_poke fun s hs => h1 m hm _ s hs).bind fun _ _ => hm
      · refine (safe_forEach fun nn hnn => ?_).bind fun _ _ => ?_
        · have hn2 : lo ≤ nn.2 := hns _ (List.of_mem_zip hnn).2
          refine (safe_Node_parent _).bind fun o _ => ?_
          have second : Safe lo P (fun _ => True) (do
              match ← Node.mimicParent nn.1 with
              | some m =>
                let i ← expect (position m c.nodes) "called `Option::unwrap()` on a `None` value"
                let m' ← expect ns[i]? "index out of bounds"
                doLock nn.1
                let s ← doRead nn.1
                let mimic ← expect s.mimic "called `Option::unwrap()` on a `None` value"
                Node.setMimicParent nn.2 m' mimic
                doUnlock nn.1
              | none => pure () : KProg T Unit) := by
            refine (safe_Node_mimicParent _).bind fun o _ => ?_
            cases o with
            | none => trivial
            | some m =>
              refine (safe_expect (Q := fun _ => True) fun _ _ => trivial).bind fun i _ => ?_
              refine (safe_expect (Q := fun m => lo ≤ m) fun m e =>
                hns m (List.mem_of_getElem? e)).bind fun m' hm' => ?_
              refine (safe_doLock _).bind fun _ _ => (safe_doRead _).bind fun s _ => ?_
              refine (safe_expect (Q := fun _ => True) fun _ _ => trivial).bind fun mi _ => ?_
              refine Safe.bind (Q := fun _ => True) ?_ fun _ _ => trivial
              exact (safe_poke (h4 _ hn2 _)).bind fun _ _ =>
                (safe_poke (h5 _ hm' _ hn2)).bind fun _ _ => safe_poke (h6 _ hn2 _)
          cases o with
          | none => exact second
          | some p =>
            refine (safe_expect (Q := fun _ => True) fun _ _ => trivial).bind fun i _ => ?_
            refine (safe_expect (Q := fun m => lo ≤ m) fun m e =>
              hns m (List.mem_of_getElem? e)).bind fun p' hp' => ?_
            refine Safe.bind (Q := fun _ => True) ?_ fun _ _ => second
            exact (safe_poke (h2 _ hn2 _)).bind fun _ _ => safe_poke (h3 _ hp' _ hn2)
        · refine (safe_expect (Q := fun _ => True) fun _ _ => trivial).bind fun r _ => ?_
          refine (safe_Node_isRoot _).bind fun b _ => ?_
          split
          · trivial
          · exact safe_fromRoot _ _
end Chain

theorem safe_jacobian (c : Chain)
    (h : ∀ n ∈ c.nodes, ∀ t s, P n s → P n { s with joint := s.joint.setWorldTransform t }) :
    Safe lo P (fun _ => True) (jacobian c : KProg T _) := by
  refine (Chain.safe_endTransform c).bind fun _ _ => ?_
  refine (Chain.safe_updateTransforms c h).bind fun _ _ => ?_
  refine (safe_mapList (Q := fun _ => True) fun n _ => ?_).true
  refine (safe_doLock n).bind fun _ _ => (safe_doRead n).bind fun s _ => ?_
  refine (safe_expect (Q := fun _ => True) fun _ _ => trivial).bind fun t _ => ?_
  exact (safe_ofExcept (Q := fun _ => True) fun _ _ => trivial).bind fun _ _ => trivial

theorem safe_comLoop (ns : List NodeId) (a : ComAcc T) :
    Safe lo P (fun _ => True) (comLoop ns a) := by
  induction ns generalizing a with
  | nil => trivial
  | cons n ns ih =>
    refine (safe_Node_worldTransform n).bind fun t _ => ?_
    cases t with
    | none => exact ih _
    | some t => exact (safe_Node_link n).bind fun _ _ => ih _
theorem safe_centerOfMass (c : Chain)
    (h : ∀ n ∈ c.nodes, ∀ t s, P n s → P n { s with joint := s.joint.setWorldTransform t }) :
    Safe lo P (fun _ => True) (centerOfMass c : KProg T _) :=
  (Chain.safe_updateTransforms c h).bind fun _ _ => (safe_comLoop _ _).bind fun _ _ => trivial

theorem safe_solveOneLoop (s : IkSolver T) (arm : Chain) (t : Iso T) (ops : List Bool)
    (ig : List Nat)
    (h : ∀ n ∈ arm.nodes, ∀ t s, P n s → P n { s with joint := s.joint.setWorldTransform t })
    (h' : ∀ n ∈ arm.movableNodes, ∀ y s, P n s →
      P n { s with joint := s.joint.setJointPositionClamped y }) :
    Safe lo P (fun _ => True) (solveOneLoop s arm t ops ig) := by
  refine (Chain.safe_jointPositions' arm).bind fun _ _ => ?_
  refine (Chain.safe_endTransform arm).bind fun _ _ => ?_
  refine (safe_jacobian arm h).bind fun _ _ => ?_
  refine (safe_ofExcept (Q := fun _ => True) fun _ _ => trivial).bind fun r _ => ?_
  cases r with
  | error e => trivial
  | ok ps =>
    refine (Chain.safe_setJointPositionsClamped arm ps fun n hn y _ => h' n hn y).bind fun _ _ => ?_
    exact (Chain.safe_endTransform arm).bind fun _ _ => trivial

theorem safe_tryLoop (s : IkSolver T) (arm : Chain) (t : Iso T) (ops : List Bool)
    (ig : List Nat) (orig : List T) (k : Nat) (l : Option (V3 T × V3 T))
    (h : ∀ n ∈ arm.nodes, ∀ t s, P n s → P n { s with joint := s.joint.setWorldTransform t })
    (h' : ∀ n ∈ arm.movableNodes, ∀ y s, P n s →
      P n { s with joint := s.joint.setJointPositionClamped y })
    (h'' : ∀ n ∈ arm.movableNodes, SetOK P n) :
    Safe lo P (fun _ => True) (tryLoop s arm t ops ig orig k l) := by
  induction k generalizing l with
  | zero =>
    unfold tryLoop
    refine (Chain.safe_setJointPositions arm orig h'').bind fun r _ => ?_
    cases r with
    | error e => trivial
    | ok u => exact (safe_expect (Q := fun _ => True) fun _ _ => trivial).bind fun _ _ => trivial
  | succ k ih =>
    unfold tryLoop
    refine (safe_solveOneLoop s arm t ops ig h h').bind fun r _ => ?_
    cases r with
    | error e => trivial
    | ok d =>
      dsimp only
      split
      · refine (Chain.safe_jointPositions' arm).bind fun ps _ => ?_
        exact (Chain.safe_setJointPositionsClamped arm ps fun n hn y _ => h' n hn y).bind
          fun _ _ => trivial
      · exact ih _

theorem safe_jointIndex (name : String) (ns : List NodeId) :
    Safe lo P (fun _ => True) (jointIndex name ns : KProg T _) := by
  induction ns with
  | nil => trivial
  | cons n ns ih =>
    unfold jointIndex
    refine (safe_Node_joint n).bind fun j _ => ?_
    split
    · trivial
    · exact ih.bind fun _ _ => trivial
theorem safe_ignoredIndices (arm : Chain) (names : List String) :
    Safe lo P (fun _ => True) (ignoredIndices arm names : KProg T _) := by
  induction names with
  | nil => trivial
  | cons n ns ih =>
    refine (safe_jointIndex _ _).bind fun o _ => ?_
    cases o with
    | none => trivial
    | some i =>
      refine ih.bind fun r _ => ?_
      cases r <;> trivial

theorem safe_solveWithConstraints (s : IkSolver T) (arm : Chain) (t : Iso T) (cs : Constraints)
    (h : ∀ n ∈ arm.nodes, ∀ t s, P n s → P n { s with joint := s.joint.setWorldTransform t })
    (h' : ∀ n ∈ arm.movableNodes, ∀ y s, P n s →
      P n { s with joint := s.joint.setJointPositionClamped y })
    (h'' : ∀ n ∈ arm.movableNodes, SetOK P n) :
    Safe lo P (fun _ => True) (solveWithConstraints s arm t cs) := by
  unfold solveWithConstraints
  refine (Chain.safe_jointPositions' arm).bind fun orig _ => ?_
  refine Safe.bind (Q := fun _ => True) ?_ fun r _ => ?_
  · unfold solveInternal
    refine (Chain.safe_jointPositions' arm).bind fun _ _ => ?_
    split
    · trivial
    · dsimp only
      split
      · trivial
      · refine (safe_ignoredIndices _ _).bind fun r _ => ?_
        cases r with
        | error e => trivial
        | ok ig => exact safe_tryLoop _ _ _ _ _ _ _ _ h h' h''
  · cases r with
    | ok u => trivial
    | error e =>
      refine (Chain.safe_setJointPositions arm orig h'').bind fun r _ => ?_
      cases r <;> trivial

end K
