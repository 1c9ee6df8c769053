import Verif.Lemmas.Calls
/-!
# Lock discipline of programs

`Lk A pk lo P U Q p L`: started while holding the locks `L` (most recent first), `p` only locks a node `n`
when `A held n`, only reads and writes nodes it has locked, only unlocks what it holds, reads only
states allowed by the per-node invariant `P`, writes only updates in `U` (e.g. `Pres P`), and returns with locks and value related by `Q`; it can panic only while holding locks `L` with
`pk L`.
-/

set_option linter.unusedSectionVars false

namespace K
open Prog

variable {S α β γ δ ε : Type}

/-- see the file comment -/
def Lk (A : List NodeId → NodeId → Prop) (pk : List NodeId → Prop) (lo : Nat) (P : NodeId → S → Prop)
    (U : NodeId → (S → S) → Prop) (Q : List NodeId → α → Prop) : Prog S α → List NodeId → Prop
  | .ret a, L => Q L a
  | .lock n k, L => A L n ∧ Lk A pk lo P U Q k (n :: L)
  | .unlock n k, L => n ∈ L ∧ Lk A pk lo P U Q k (L.erase n)
  | .read n k, L => n ∈ L ∧ ∀ s, P n s → Lk A pk lo P U Q (k s) L
  | .write n f k, L => n ∈ L ∧ U n f ∧ Lk A pk lo P U Q k L
  | .upgrade _ k, L => ∀ b, Lk A pk lo P U Q (k b) L
  | .alloc s k, L => ∀ m, lo ≤ m → P m s ∧ Lk A pk lo P U Q (k m) L
  | .panic _, L => pk L
  | .diverge, _ => True

/-- the updates that keep a per-node invariant -/
abbrev Pres (P : NodeId → S → Prop) (n : NodeId) (f : S → S) : Prop := ∀ s, P n s → P n (f s)

variable {A : List NodeId → NodeId → Prop} {pk : List NodeId → Prop} {lo : Nat} {P : NodeId → S → Prop}
  {U : NodeId → (S → S) → Prop}

theorem Lk.mono {Q Q' : List NodeId → α → Prop} {p : Prog S α} {L : List NodeId}
    (h : Lk A pk lo P U Q p L) (i : ∀ L a, Q L a → Q' L a) : Lk A pk lo P U Q' p L := by
  induction p generalizing L with
  | ret a => exact i L a h
  | lock n k ih => exact ⟨h.1, ih h.2⟩
  | unlock n k ih => exact ⟨h.1, ih h.2⟩
  | read n k ih => exact ⟨h.1, fun s hs => ih s (h.2 s hs)⟩
  | write n f k ih => exact ⟨h.1, h.2.1, ih h.2.2⟩
  | upgrade n k ih => exact fun b => ih b (h b)
  | alloc s k ih => exact fun m hm => ⟨(h m hm).1, ih m (h m hm).2⟩
  | panic m => exact h
  | diverge => trivial

theorem Lk.bind' {Q : List NodeId → α → Prop} {R : List NodeId → β → Prop} {p : Prog S α}
    {f : α → Prog S β} {L : List NodeId} (h : Lk A pk lo P U Q p L)
    (hf : ∀ L a, Q L a → Lk A pk lo P U R (f a) L) : Lk A pk lo P U R (p >>= f) L := by
  show Lk A pk lo P U R (p.bind f) L
  induction p generalizing L with
  | ret a => exact hf L a h
  | lock n k ih => exact ⟨h.1, ih h.2⟩
  | unlock n k ih => exact ⟨h.1, ih h.2⟩
  | read n k ih => exact ⟨h.1, fun s hs => ih s (h.2 s hs)⟩
  | write n f k ih => exact ⟨h.1, h.2.1, ih h.2.2⟩
  | upgrade n k ih => exact fun b => ih b (h b)
  | alloc s k ih => exact fun m hm => ⟨(h m hm).1, ih m (h m hm).2⟩
  | panic m => exact h
  | diverge => trivial

/-- `p` ends with the locks it started with -/
def Keep (A : List NodeId → NodeId → Prop) (pk : List NodeId → Prop) (lo : Nat) (P : NodeId → S → Prop)
    (U : NodeId → (S → S) → Prop) (L : List NodeId)
    (Q : α → Prop) (p : Prog S α) : Prop := Lk A pk lo P U (fun L' a => L' = L ∧ Q a) p L

theorem Keep.lk {Q : α → Prop} {R : List NodeId → β → Prop} {p : Prog S α}
    {f : α → Prog S β} {L : List NodeId} (h : Keep A pk lo P U L Q p)
    (hf : ∀ a, Q a → Lk A pk lo P U R (f a) L) : Lk A pk lo P U R (p >>= f) L :=
  Lk.bind' h fun L' a ha => by obtain ⟨rfl, ha⟩ := ha; exact hf a ha
theorem Keep.bind {Q : α → Prop} {R : β → Prop} {p : Prog S α}
    {f : α → Prog S β} {L : List NodeId} (h : Keep A pk lo P U L Q p)
    (hf : ∀ a, Q a → Keep A pk lo P U L R (f a)) : Keep A pk lo P U L R (p >>= f) := h.lk hf
theorem Keep.mono {Q Q' : α → Prop} {p : Prog S α} {L : List NodeId} (h : Keep A pk lo P U L Q p)
    (i : ∀ a, Q a → Q' a) : Keep A pk lo P U L Q' p := Lk.mono h fun _ _ ha => ⟨ha.1, i _ ha.2⟩
theorem Keep.true {Q : α → Prop} {p : Prog S α} {L : List NodeId} (h : Keep A pk lo P U L Q p) :
    Keep A pk lo P U L (fun _ => True) p := h.mono fun _ _ => trivial

/-! ## combinators -/
variable {L : List NodeId}

theorem lk_lock {n : NodeId} {f : Unit → Prog S α} {Q : List NodeId → α → Prop} (a : A L n)
    (h : Lk A pk lo P U Q (f ()) (n :: L)) : Lk A pk lo P U Q (doLock n >>= f) L := ⟨a, h⟩
theorem lk_read {n : NodeId} {f : S → Prog S α} {Q : List NodeId → α → Prop}
    (h : ∀ s, P n s → Lk A pk lo P U Q (f s) (n :: L)) : Lk A pk lo P U Q (doRead n >>= f) (n :: L) :=
  ⟨by simp, h⟩
theorem lk_write {n : NodeId} {g : S → S} {f : Unit → Prog S α} {Q : List NodeId → α → Prop}
    (w : U n g)
    (h : Lk A pk lo P U Q (f ()) (n :: L)) : Lk A pk lo P U Q (doWrite n g >>= f) (n :: L) :=
  ⟨by simp, w, h⟩
theorem lk_unlock {n : NodeId} {f : Unit → Prog S α} {Q : List NodeId → α → Prop}
    (h : Lk A pk lo P U Q (f ()) L) : Lk A pk lo P U Q (doUnlock n >>= f) (n :: L) := by
  refine ⟨by simp, ?_⟩
  rw [List.erase_cons_head]; exact h
theorem lk_doUnlock {n : NodeId} : Lk A pk lo P U (fun L' (_ : Unit) => L' = L ∧ True) (doUnlock n)
    (n :: L) := by
  refine ⟨by simp, ?_⟩
  rw [List.erase_cons_head]; exact ⟨rfl, trivial⟩
theorem lk_upgrade {n : NodeId} {f : Bool → Prog S α} {Q : List NodeId → α → Prop}
    (h : ∀ b, Lk A pk lo P U Q (f b) L) : Lk A pk lo P U Q (doUpgrade n >>= f) L := h
theorem lk_alloc {s : S} {f : NodeId → Prog S α} {Q : List NodeId → α → Prop}
    (h : ∀ m, lo ≤ m → P m s ∧ Lk A pk lo P U Q (f m) L) : Lk A pk lo P U Q (doAlloc s >>= f) L := h

theorem keep_pure {Q : α → Prop} {a : α} (h : Q a) : Keep A pk lo P U L Q (pure a : Prog S α) := ⟨rfl, h⟩
theorem keep_pure' {a : α} : Keep A pk lo P U L (fun _ => True) (pure a : Prog S α) := ⟨rfl, trivial⟩
theorem keep_ret {Q : α → Prop} {a : α} (h : Q a) : Keep A pk lo P U L Q (.ret a : Prog S α) := ⟨rfl, h⟩
theorem keep_panic {Q : α → Prop} {m : String} (hk : pk L) :
    Keep A pk lo P U L Q (.panic m : Prog S α) := hk

theorem keep_peek {n : NodeId} (a : A L n) : Keep A pk lo P U L (P n) (peek n) := by
  refine lk_lock a (lk_read fun s hs => lk_unlock ?_); exact ⟨rfl, hs⟩
theorem keep_poke {n : NodeId} {f : S → S} (a : A L n) (h : U n f) :
    Keep A pk lo P U L (fun _ => True) (poke n f) :=
  lk_lock a (lk_write h lk_doUnlock)
theorem keep_expect (hk : pk L) {Q : α → Prop} {o : Option α} {m : String} (h : ∀ a, o = some a → Q a) :
    Keep A pk lo P U L Q (expect o m) := by
  cases o with
  | none => exact hk
  | some a => exact ⟨rfl, h a rfl⟩
theorem keep_expect' (hk : pk L) {o : Option α} {m : String} :
    Keep A pk lo P U L (fun _ => True) (expect o m) := keep_expect hk fun _ _ => trivial
theorem keep_ofExcept (hk : pk L) {o : Except String α} :
    Keep A pk lo P U L (fun _ => True) (ofExcept o) := by
  cases o with
  | error => exact hk
  | ok a => exact ⟨rfl, trivial⟩

theorem keep_forEach {xs : List γ} {f : γ → Prog S Unit}
    (h : ∀ x ∈ xs, Keep A pk lo P U L (fun _ => True) (f x)) :
    Keep A pk lo P U L (fun _ => True) (forEach xs f) := by
  induction xs with
  | nil => exact ⟨rfl, trivial⟩
  | cons x xs ih =>
    exact (h x (by simp)).bind fun _ _ => ih fun y hy => h y (by simp [hy])
theorem keep_mapList {Q : δ → Prop} {xs : List γ} {f : γ → Prog S δ}
    (h : ∀ x ∈ xs, Keep A pk lo P U L Q (f x)) :
    Keep A pk lo P U L (fun l => ∀ y ∈ l, Q y) (mapList xs f) := by
  induction xs with
  | nil => exact ⟨rfl, fun y hy => by cases hy⟩
  | cons x xs ih =>
    refine (h x (by simp)).bind fun y hy => ?_
    refine (ih fun z hz => h z (by simp [hz])).bind fun ys hys => ?_
    exact keep_pure (by simpa using ⟨hy, hys⟩)
theorem keep_filterList {xs : List γ} {f : γ → Prog S Bool}
    (h : ∀ x ∈ xs, Keep A pk lo P U L (fun _ => True) (f x)) :
    Keep A pk lo P U L (fun _ => True) (filterList xs f) := by
  induction xs with
  | nil => exact ⟨rfl, trivial⟩
  | cons x xs ih =>
    refine (h x (by simp)).bind fun y hy => ?_
    exact (ih fun z hz => h z (by simp [hz])).bind fun ys hys => keep_pure'
theorem keep_tryEach {xs : List γ} {f : γ → Prog S (Except ε Unit)}
    (h : ∀ x ∈ xs, Keep A pk lo P U L (fun _ => True) (f x)) :
    Keep A pk lo P U L (fun _ => True) (tryEach xs f) := by
  induction xs with
  | nil => exact ⟨rfl, trivial⟩
  | cons x xs ih =>
    refine (h x (by simp)).bind fun r _ => ?_
    cases r with
    | error e => exact keep_pure'
    | ok u => exact ih fun y hy => h y (by simp [hy])
theorem keep_findFirst {xs : List γ} {f : γ → Prog S Bool}
    (h : ∀ x ∈ xs, Keep A pk lo P U L (fun _ => True) (f x)) :
    Keep A pk lo P U L (fun _ => True) (findFirst xs f) := by
  induction xs with
  | nil => exact ⟨rfl, trivial⟩
  | cons x xs ih =>
    refine (h x (by simp)).bind fun b _ => ?_
    cases b with
    | true => exact keep_pure'
    | false => exact ih fun y hy => h y (by simp [hy])

/-! ## the methods -/
variable {T : Type} [Scalar T] {P : NodeId → NodeImpl T → Prop}
  {U : NodeId → (NodeImpl T → NodeImpl T) → Prop}

theorem keep_Node_joint {n : NodeId} (a : A L n) :
    Keep A pk lo P U L (fun _ => True) (Node.joint n : KProg T _) :=
  (keep_peek a).bind fun _ _ => keep_pure'
theorem keep_Node_jointPosition {n : NodeId} (a : A L n) :
    Keep A pk lo P U L (fun _ => True) (Node.jointPosition n : KProg T _) :=
  (keep_peek a).bind fun _ _ => keep_pure'
theorem keep_Node_children {n : NodeId} (a : A L n) :
    Keep A pk lo P U L (fun _ => True) (Node.children n : KProg T _) :=
  (keep_peek a).bind fun _ _ => keep_pure'
theorem keep_Node_isRoot {n : NodeId} (a : A L n) :
    Keep A pk lo P U L (fun _ => True) (Node.isRoot n : KProg T _) :=
  (keep_peek a).bind fun _ _ => keep_pure'
theorem keep_Node_isEnd {n : NodeId} (a : A L n) :
    Keep A pk lo P U L (fun _ => True) (Node.isEnd n : KProg T _) :=
  (keep_peek a).bind fun _ _ => keep_pure'
theorem keep_Node_link {n : NodeId} (a : A L n) :
    Keep A pk lo P U L (fun _ => True) (Node.link n : KProg T _) :=
  (keep_peek a).bind fun _ _ => keep_pure'
theorem keep_Node_origin {n : NodeId} (a : A L n) :
    Keep A pk lo P U L (fun _ => True) (Node.origin n : KProg T _) :=
  (keep_Node_joint a).bind fun _ _ => keep_pure'
theorem keep_Node_worldTransform {n : NodeId} (a : A L n) :
    Keep A pk lo P U L (fun _ => True) (Node.worldTransform n : KProg T _) :=
  (keep_Node_joint a).bind fun _ _ => keep_pure'
theorem keep_Node_worldVelocity {n : NodeId} (a : A L n) :
    Keep A pk lo P U L (fun _ => True) (Node.worldVelocity n : KProg T _) :=
  (keep_Node_joint a).bind fun _ _ => keep_pure'
theorem keep_Node_parent {n : NodeId} (a : A L n) :
    Keep A pk lo P U L (fun _ => True) (Node.parent n : KProg T _) := by
  refine lk_lock a (lk_read fun s _ => ?_)
  cases s.parent with
  | none => exact lk_unlock keep_pure'
  | some w => exact lk_upgrade fun b => lk_unlock keep_pure'
theorem keep_Node_mimicParent {n : NodeId} (a : A L n) :
    Keep A pk lo P U L (fun _ => True) (Node.mimicParent n : KProg T _) := by
  refine lk_lock a (lk_read fun s _ => ?_)
  cases s.mimicParent with
  | none => exact lk_unlock keep_pure'
  | some w => exact lk_upgrade fun b => lk_unlock keep_pure'
theorem keep_Node_parentWorldTransform (a : ∀ n, A L n) (n : NodeId) :
    Keep A pk lo P U L (fun _ => True) (Node.parentWorldTransform n : KProg T _) := by
  refine (keep_Node_parent (a n)).bind fun o _ => ?_
  cases o with
  | none => exact keep_pure'
  | some p => exact keep_Node_worldTransform (a p)
theorem keep_Node_setParent {n p : NodeId} (a : A L n) (b : A L p)
    (h2 : U n fun s => { s with parent := some p })
    (h3 : U p fun s => { s with children := s.children ++ [n] }) :
    Keep A pk lo P U L (fun _ => True) (Node.setParent n p : KProg T _) :=
  (keep_poke a h2).bind fun _ _ => keep_poke b h3
theorem keep_Node_removeParent {n p : NodeId} (a : A L n) (b : A L p)
    (h2 : U n fun s => { s with parent := none })
    (h3 : U p fun s => { s with children := s.children.filter (fun x => x != n) }) :
    Keep A pk lo P U L (fun _ => True) (Node.removeParent n p : KProg T _) :=
  (keep_poke a h2).bind fun _ _ => keep_poke b h3
theorem keep_Node_setMimicParent {n p : NodeId} {m : Mimic T} (a : A L n) (b : A L p)
    (h2 : U n fun s => { s with mimicParent := some p })
    (h3 : U p fun s => { s with mimicChildren := s.mimicChildren ++ [n] })
    (h4 : U n fun s => { s with mimic := some m }) :
    Keep A pk lo P U L (fun _ => True) (Node.setMimicParent n p m) :=
  (keep_poke a h2).bind fun _ _ => (keep_poke b h3).bind fun _ _ => keep_poke a h4

/-- the checked setter: the mimic children are locked while the node is locked; every registered child
knows its `Mimic`, or the master may be locked once more for the error -/
theorem keep_Node_setJointPosition {n : NodeId} {x : T} (a : A L n)
    (mc : ∀ s, P n s → s.mimicParent = none → ∀ c ∈ s.mimicChildren, A (n :: L) c ∧
      ∀ s', P c s' → s'.mimic = none →
        A (c :: n :: L) n ∧ A (c :: n :: L) c)
    (h : ∀ c y, U c fun s => { s with joint := (s.joint.setJointPosition y).1 }) :
    Keep A pk lo P U L (fun _ => True) (Node.setJointPosition n x) := by
  refine lk_lock a (lk_read fun s hs => ?_)
  split
  · exact lk_unlock keep_pure'
  · rename_i nm
    have nm : s.mimicParent = none := by simpa using nm
    refine lk_write (h n x) ?_
    split
    · exact lk_unlock keep_pure'
    · refine Keep.lk (Q := fun _ => True) (keep_tryEach fun c hc => ?_) fun _ _ =>
        lk_unlock keep_pure'
      obtain ⟨ac, mi⟩ := mc s hs nm c hc
      refine lk_lock ac (lk_read fun s' hs' => ?_)
      cases hm : s'.mimic with
      | none =>
        exact (keep_Node_joint (mi s' hs' hm).1).lk fun _ _ =>
          (keep_Node_joint (mi s' hs' hm).2).lk fun _ _ => lk_unlock keep_pure'
      | some m => exact lk_write (h c _) (lk_unlock keep_pure')

section top
variable (a0 : ∀ n, A [] n)
include a0

theorem keep_ancestors (fuel : Nat) (o : Option NodeId) :
    Keep A pk lo P U [] (fun _ => True) (ancestors fuel o : KProg T _) := by
  induction fuel generalizing o with
  | zero => cases o with
    | none => exact keep_pure'
    | some n => trivial
  | succ k ih =>
    cases o with
    | none => exact keep_pure'
    | some n => exact (keep_Node_parent (a0 n)).bind fun p _ => (ih p).bind fun _ _ => keep_pure'
theorem keep_ancestorsUntil (stop : NodeId) (fuel : Nat) (o : Option NodeId) :
    Keep A pk lo P U [] (fun _ => True) (ancestorsUntil stop fuel o : KProg T _) := by
  induction fuel generalizing o with
  | zero => cases o with
    | none => exact keep_pure'
    | some n => trivial
  | succ k ih =>
    cases o with
    | none => exact keep_pure'
    | some n =>
      refine (keep_Node_parent (a0 n)).bind fun p _ => ?_
      split
      · exact keep_pure'
      · exact (ih p).bind fun _ _ => keep_pure'
theorem keep_descendants (fuel : Nat) (st : List NodeId) :
    Keep A pk lo P U [] (fun _ => True) (descendants fuel st : KProg T _) := by
  induction fuel generalizing st with
  | zero => cases st with
    | nil => exact keep_pure'
    | cons => trivial
  | succ k ih =>
    cases st with
    | nil => exact keep_pure'
    | cons n st =>
      exact (keep_Node_children (a0 n)).bind fun p _ => (ih _).bind fun _ _ => keep_pure'

namespace Chain
theorem keep_fromNodes (ns : List NodeId) :
    Keep A pk lo P U [] (fun _ => True) (fromNodes ns : KProg T _) :=
  Keep.bind (keep_filterList fun n _ => (keep_Node_joint (a0 n)).bind fun _ _ => keep_pure')
    fun _ _ => keep_pure'
theorem keep_fromRoot (fuel : Nat) (n : NodeId) :
    Keep A pk lo P U [] (fun _ => True) (fromRoot fuel n : KProg T _) :=
  (keep_descendants a0 _ _).bind fun _ _ => keep_fromNodes a0 _
theorem keep_fromEnd (fuel : Nat) (n : NodeId) :
    Keep A pk lo P U [] (fun _ => True) (fromEnd fuel n : KProg T _) :=
  (keep_ancestors a0 _ _).bind fun _ _ => keep_fromNodes a0 _
theorem keep_fromEndToRoot (fuel : Nat) (n r : NodeId) :
    Keep A pk lo P U [] (fun _ => True) (fromEndToRoot fuel n r : KProg T _) :=
  (keep_ancestorsUntil a0 _ _ _).bind fun _ _ => keep_fromNodes a0 _
theorem keep_setOrigin (hk : pk []) (c : Chain) (t : Iso T)
    (h : ∀ n ∈ c.nodes, U n fun s => { s with joint := s.joint.setOrigin t }) :
    Keep A pk lo P U [] (fun _ => True) (c.setOrigin t) := by
  unfold setOrigin; split
  · exact hk
  · rename_i n _ e; exact keep_poke (a0 _) (h n (by simp [e]))
theorem keep_origin (hk : pk []) (c : Chain) : Keep A pk lo P U [] (fun _ => True) (c.origin : KProg T _) := by
  unfold origin; split
  · exact hk
  · exact keep_Node_origin (a0 _)
theorem keep_iterJoints (c : Chain) :
    Keep A pk lo P U [] (fun _ => True) (c.iterJoints : KProg T _) :=
  (keep_mapList (Q := fun _ => True) fun n _ => keep_Node_joint (a0 n)).true
theorem keep_iterLinks (hk : ∀ n, pk [n]) (c : Chain) :
    Keep A pk lo P U [] (fun _ => True) (c.iterLinks : KProg T _) := by
  refine Keep.bind (keep_mapList (Q := fun _ => True) fun n _ => ?_) fun _ _ => keep_pure'
  refine (keep_Node_link (a0 n)).bind fun o _ => ?_
  split
  · exact lk_lock (a0 n) (lk_read fun s _ => (keep_expect' (hk n)).lk fun _ _ => lk_unlock keep_pure')
  · exact keep_pure'
theorem keep_find (c : Chain) (s : String) :
    Keep A pk lo P U [] (fun _ => True) (c.find s : KProg T _) :=
  keep_findFirst fun n _ => (keep_Node_joint (a0 n)).bind fun _ _ => keep_pure'
theorem keep_jointPositions (hk : ∀ n, pk [n]) (c : Chain) :
    Keep A pk lo P U [] (fun _ => True) (c.jointPositions : KProg T _) := by
  refine (keep_mapList (Q := fun _ => True) fun n _ => ?_).true
  exact lk_lock (a0 n) (lk_read fun s _ => (keep_expect' (hk n)).lk fun _ _ => lk_unlock keep_pure')
theorem keep_setJointPositions (c : Chain) (xs : List T)
    (mc : ∀ n s, P n s → s.mimicParent = none → ∀ c ∈ s.mimicChildren, A [n] c ∧
      ∀ s', P c s' → s'.mimic = none → A [c, n] n ∧ A [c, n] c)
    (h : ∀ c y, U c fun s => { s with joint := (s.joint.setJointPosition y).1 }) :
    Keep A pk lo P U [] (fun _ => True) (c.setJointPositions xs) := by
  unfold setJointPositions; split
  · exact keep_pure'
  · exact keep_tryEach fun jp _ => keep_Node_setJointPosition (a0 _) (mc _) h
theorem keep_setJointPositionsClamped (c : Chain) (xs : List T)
    (h : ∀ n ∈ c.movableNodes, ∀ y ∈ xs, U n fun s => { s with joint := s.joint.setJointPositionClamped y }) :
    Keep A pk lo P U [] (fun _ => True) (c.setJointPositionsClamped xs) :=
  keep_forEach fun _ hp => keep_poke (a0 _) (h _ (List.of_mem_zip hp).1 _ (List.of_mem_zip hp).2)
theorem keep_setJointPositionsUnchecked (c : Chain) (xs : List T)
    (h : ∀ n ∈ c.movableNodes, ∀ y ∈ xs, U n fun s => { s with joint := s.joint.setJointPositionUnchecked y }) :
    Keep A pk lo P U [] (fun _ => True) (c.setJointPositionsUnchecked xs) :=
  keep_forEach fun _ hp => keep_poke (a0 _) (h _ (List.of_mem_zip hp).1 _ (List.of_mem_zip hp).2)
theorem keep_updateTransforms (hk : pk []) (c : Chain)
    (h : ∀ n t, U n fun s => { s with joint := s.joint.setWorldTransform t }) :
    Keep A pk lo P U [] (fun _ => True) (c.updateTransforms : KProg T _) := by
  refine (keep_mapList (Q := fun _ => True) fun n hn => ?_).true
  refine (keep_Node_parentWorldTransform a0 n).bind fun _ _ => (keep_expect' hk).bind fun t _ => ?_
  refine (keep_Node_joint (a0 n)).bind fun j _ => ?_
  exact (keep_poke (a0 n) (h n _)).bind fun _ _ => keep_pure'
theorem keep_updateLinkTransforms (hk : pk []) (c : Chain)
    (h : ∀ n t, U n fun s => { s with joint := s.joint.setWorldTransform t })
    (h' : ∀ n t, U n fun s => { s with link := s.link.map (placeLink t) }) :
    Keep A pk lo P U [] (fun _ => True) (c.updateLinkTransforms : KProg T _) := by
  refine (keep_updateTransforms a0 hk c h).bind fun _ _ => ?_
  refine keep_forEach fun n hn => ?_
  refine (keep_Node_parentWorldTransform a0 n).bind fun _ _ => (keep_expect' hk).bind fun t _ => ?_
  exact keep_poke (a0 n) (h' n _)
theorem keep_foldTransform (ns : List NodeId) (t : Iso T) :
    Keep A pk lo P U [] (fun _ => True) (foldTransform ns t) := by
  induction ns generalizing t with
  | nil => exact keep_pure'
  | cons n ns ih => exact (keep_Node_joint (a0 n)).bind fun _ _ => ih _
theorem keep_endTransform (c : Chain) :
    Keep A pk lo P U [] (fun _ => True) (c.endTransform : KProg T _) := keep_foldTransform a0 _ _
theorem keep_tryNew (hk : pk []) (c : Chain) : Keep A pk lo P U [] (fun _ => True) (c.tryNew : KProg T _) := by
  unfold tryNew; split
  · exact hk
  · refine Keep.bind (keep_findFirst fun n _ => ?_) fun _ _ => keep_pure'
    exact (keep_Node_children (a0 n)).bind fun _ _ => keep_pure'
end Chain

theorem keep_jacobian (hk : pk []) (hk1 : ∀ n, pk [n]) (c : Chain)
    (h : ∀ n t, U n fun s => { s with joint := s.joint.setWorldTransform t }) :
    Keep A pk lo P U [] (fun _ => True) (jacobian c : KProg T _) := by
  refine (Chain.keep_endTransform a0 c).bind fun _ _ => ?_
  refine (Chain.keep_updateTransforms a0 hk c h).bind fun _ _ => ?_
  refine (keep_mapList (Q := fun _ => True) fun n _ => ?_).true
  refine lk_lock (a0 n) (lk_read fun s _ => (keep_expect' (hk1 n)).lk fun _ _ => ?_)
  exact (keep_ofExcept (hk1 n)).lk fun _ _ => lk_unlock keep_pure'
theorem keep_comLoop (ns : List NodeId) (a : ComAcc T) :
    Keep A pk lo P U [] (fun _ => True) (comLoop ns a) := by
  induction ns generalizing a with
  | nil => exact keep_pure'
  | cons n ns ih =>
    refine (keep_Node_worldTransform (a0 n)).bind fun t _ => ?_
    cases t with
    | none => exact ih _
    | some t => exact (keep_Node_link (a0 n)).bind fun _ _ => ih _
theorem keep_centerOfMass (hk : pk []) (c : Chain)
    (h : ∀ n t, U n fun s => { s with joint := s.joint.setWorldTransform t }) :
    Keep A pk lo P U [] (fun _ => True) (centerOfMass c : KProg T _) :=
  (Chain.keep_updateTransforms a0 hk c h).bind fun _ _ => (keep_comLoop a0 _ _).bind
    fun _ _ => keep_pure'
theorem keep_solveOneLoop (hk : pk []) (hk1 : ∀ n, pk [n]) (s : IkSolver T) (arm : Chain) (t : Iso T) (ops : List Bool)
    (ig : List Nat)
    (h : ∀ n t, U n fun s => { s with joint := s.joint.setWorldTransform t })
    (h' : ∀ n y, U n fun s => { s with joint := s.joint.setJointPositionClamped y }) :
    Keep A pk lo P U [] (fun _ => True) (solveOneLoop s arm t ops ig) := by
  refine (Chain.keep_jointPositions a0 hk1 arm).bind fun _ _ => ?_
  refine (Chain.keep_endTransform a0 arm).bind fun _ _ => ?_
  refine (keep_jacobian a0 hk hk1 arm h).bind fun _ _ => (keep_ofExcept hk).bind fun r _ => ?_
  cases r with
  | error e => exact keep_pure'
  | ok ps =>
    refine (Chain.keep_setJointPositionsClamped a0 arm ps fun n _ y _ => h' n y).bind fun _ _ => ?_
    exact (Chain.keep_endTransform a0 arm).bind fun _ _ => keep_pure'
theorem keep_tryLoop (hk : pk []) (hk1 : ∀ n, pk [n]) (s : IkSolver T) (arm : Chain) (t : Iso T) (ops : List Bool)
    (ig : List Nat) (orig : List T) (k : Nat) (l : Option (V3 T × V3 T))
    (h : ∀ n t, U n fun s => { s with joint := s.joint.setWorldTransform t })
    (h' : ∀ n y, U n fun s => { s with joint := s.joint.setJointPositionClamped y })
    (mc : ∀ n s, P n s → s.mimicParent = none → ∀ c ∈ s.mimicChildren, A [n] c ∧
      ∀ s', P c s' → s'.mimic = none → A [c, n] n ∧ A [c, n] c)
    (h'' : ∀ c y, U c fun s => { s with joint := (s.joint.setJointPosition y).1 }) :
    Keep A pk lo P U [] (fun _ => True) (tryLoop s arm t ops ig orig k l) := by
  induction k generalizing l with
  | zero =>
    unfold tryLoop
    refine (Chain.keep_setJointPositions a0 arm orig mc h'').bind fun r _ => ?_
    cases r with
    | error e => exact keep_pure'
    | ok u => exact (keep_expect' hk).bind fun _ _ => keep_pure'
  | succ k ih =>
    unfold tryLoop
    refine (keep_solveOneLoop a0 hk hk1 s arm t ops ig h h').bind fun r _ => ?_
    cases r with
    | error e => exact keep_pure'
    | ok d =>
      dsimp only
      split
      · refine (Chain.keep_jointPositions a0 hk1 arm).bind fun ps _ => ?_
        exact (Chain.keep_setJointPositionsClamped a0 arm ps fun n _ y _ => h' n y).bind fun _ _ => keep_pure'
      · exact ih _
theorem keep_jointIndex (name : String) (ns : List NodeId) :
    Keep A pk lo P U [] (fun _ => True) (jointIndex name ns : KProg T _) := by
  induction ns with
  | nil => exact keep_pure'
  | cons n ns ih =>
    unfold jointIndex
    refine (keep_Node_joint (a0 n)).bind fun j _ => ?_
    split
    · exact keep_pure'
    · exact ih.bind fun _ _ => keep_pure'
theorem keep_ignoredIndices (arm : Chain) (names : List String) :
    Keep A pk lo P U [] (fun _ => True) (ignoredIndices arm names : KProg T _) := by
  induction names with
  | nil => exact keep_pure'
  | cons n ns ih =>
    refine (keep_jointIndex a0 _ _).bind fun o _ => ?_
    cases o with
    | none => exact keep_pure'
    | some i =>
      refine ih.bind fun r _ => ?_
      cases r <;> exact keep_pure'
theorem keep_solveWithConstraints (hk : pk []) (hk1 : ∀ n, pk [n]) (s : IkSolver T) (arm : Chain) (t : Iso T) (cs : Constraints)
    (h : ∀ n t, U n fun s => { s with joint := s.joint.setWorldTransform t })
    (h' : ∀ n y, U n fun s => { s with joint := s.joint.setJointPositionClamped y })
    (mc : ∀ n s, P n s → s.mimicParent = none → ∀ c ∈ s.mimicChildren, A [n] c ∧
      ∀ s', P c s' → s'.mimic = none → A [c, n] n ∧ A [c, n] c)
    (h'' : ∀ c y, U c fun s => { s with joint := (s.joint.setJointPosition y).1 }) :
    Keep A pk lo P U [] (fun _ => True) (solveWithConstraints s arm t cs) := by
  unfold solveWithConstraints
  refine (Chain.keep_jointPositions a0 hk1 arm).bind fun orig _ => ?_
  refine Keep.bind (Q := fun _ => True) ?_ fun r _ => ?_
  · unfold solveInternal
    refine (Chain.keep_jointPositions a0 hk1 arm).bind fun _ _ => ?_
    split
    · exact hk
    · dsimp only
      split
      · exact keep_pure'
      · refine (keep_ignoredIndices a0 _ _).bind fun r _ => ?_
        cases r with
        | error e => exact keep_pure'
        | ok ig => exact keep_tryLoop a0 hk hk1 _ _ _ _ _ _ _ _ h h' mc h''
  · cases r with
    | ok u => exact keep_pure'
    | error e =>
      refine (Chain.keep_setJointPositions a0 arm orig mc h'').bind fun r _ => ?_
      cases r <;> exact keep_pure'
end top

/-- Display: the guard of a node is held while its children are printed -/
theorem Chain.keep_fmtWithIndentLevel (c : Chain) (ok : List NodeId → NodeId → Prop)
    (acq : ∀ L n, ok L n → A L n)
    (down : ∀ L n s, ok L n → P n s → ∀ m ∈ s.children, ok (n :: L) m)
    (fuel level : Nat) (n : NodeId) (L : List NodeId) (h : ok L n) :
    Keep A pk lo P U L (fun _ => True) (c.fmtWithIndentLevel fuel level n : KProg T _) := by
  induction fuel generalizing level n L with
  | zero => trivial
  | succ k ih =>
    unfold fmtWithIndentLevel
    refine Keep.bind (Q := fun _ => True) ?_ fun _ _ => ?_
    · split
      · exact (keep_peek (acq L n h)).bind fun _ _ => keep_pure'
      · exact keep_pure'
    · refine lk_lock (acq L n h) (lk_read fun s hs => ?_)
      refine Keep.lk (keep_mapList (Q := fun _ => True) fun m hm => ?_) fun _ _ =>
        lk_unlock keep_pure'
      exact ih _ _ _ (down L n s h hs m hm)
theorem Chain.keep_display (hk : pk []) (c : Chain) (ok : List NodeId → NodeId → Prop)
    (acq : ∀ L n, ok L n → A L n)
    (down : ∀ L n s, ok L n → P n s → ∀ m ∈ s.children, ok (n :: L) m)
    (h0 : ∀ n, ok [] n) (fuel : Nat) :
    Keep A pk lo P U [] (fun _ => True) (c.display fuel : KProg T _) := by
  unfold display; split
  · exact hk
  · exact (Chain.keep_fmtWithIndentLevel c ok acq down _ _ _ _ (h0 _)).bind fun _ _ => keep_pure'

end K

/-! ## every call of the API -/
namespace K
open Prog
variable {T : Type} [Scalar T] {A : List NodeId → NodeId → Prop} {pk : List NodeId → Prop} {lo : Nat}
  {U : NodeId → (NodeImpl T → NodeImpl T) → Prop}

/-- Per-node facts that make the calls disciplined: `M` marks registered mimic children, `R` the
parent-child pairs, `K` pairs of a free master and its mimic child, `F` nodes that are known to be movable. -/
structure LockInv (M F : NodeId → Prop) (R K : NodeId → NodeId → Prop) (n : NodeId) (s : NodeImpl T) :
    Prop where
  child : M n → s.mimicParent.isSome ∧ s.mimic.isSome
  master : ∀ c ∈ s.mimicChildren, M c ∧ (s.mimicParent = none → K n c)
  kids : ∀ c ∈ s.children, R n c
  movable : F n → s.joint.isMovable = true

/-- The calls that keep `LockInv` and the lock discipline; `pk []`: calls that can panic are allowed;
`∀ n, pk [n]`: calls that can panic while holding a lock are allowed; `D`: printing is allowed. -/
def LockCall (F : NodeId → Prop) (R : NodeId → NodeId → Prop) (D : Prop)
    (pk : List NodeId → Prop) {β : Type} :
    Call T β → Prop
  | .setParent n p => R p n
  | .setMimicParent _ _ _ => False
  | .updateVelocities _ => False
  | .cloneChain _ _ => False
  | .display _ _ => D ∧ pk []
  | .jointPositions c => (∀ n, pk [n]) ∨ ∀ n ∈ c.movableNodes, F n
  | .chainSetOrigin _ _ => pk []
  | .chainOrigin _ => pk []
  | .updateTransforms _ => pk []
  | .updateLinkTransforms _ => pk []
  | .tryNew _ => pk []
  | .jacobian _ => pk [] ∧ ∀ n, pk [n]
  | .centerOfMass _ => pk []
  | .solve _ _ _ _ => pk [] ∧ ∀ n, pk [n]
  | .iterLinks _ => ∀ n, pk [n]
  | _ => True

variable {M F : NodeId → Prop} {R K : NodeId → NodeId → Prop}

theorem isMovable_setJointPosition (j : Joint T) (x : T) :
    (j.setJointPosition x).1.isMovable = j.isMovable := by
  unfold Joint.setJointPosition; split
  · rfl
  · split
    · split <;> rfl
    · rfl
theorem isMovable_setJointPositionClamped (j : Joint T) (x : T) :
    (j.setJointPositionClamped x).isMovable = j.isMovable := by
  unfold Joint.setJointPositionClamped; split <;> rfl

theorem LockInv.joint {n : NodeId} {s : NodeImpl T} (i : LockInv M F R K n s) (j : Joint T)
    (e : j.isMovable = s.joint.isMovable) : LockInv M F R K n { s with joint := j } :=
  ⟨i.child, i.master, i.kids, fun h => e.trans (i.movable h)⟩

theorem keep_jointPositions_movable {P : NodeId → NodeImpl T → Prop}
    (imp : ∀ n s, P n s → LockInv M F R K n s) (a0 : ∀ n, A [] n) (c : Chain)
    (mv : ∀ n ∈ c.movableNodes, F n) :
    Keep A pk lo P U [] (fun _ => True) c.jointPositions := by
  refine (keep_mapList (Q := fun _ => True) fun n hn => ?_).true
  refine lk_lock (a0 n) (lk_read fun s hs => ?_)
  have m := (imp n s hs).movable (mv n hn)
  cases e : s.joint.jointPosition with
  | some x => exact lk_unlock keep_pure'
  | none =>
    unfold Joint.jointPosition at e; unfold Joint.isMovable at m
    cases ej : s.joint.jointType <;> simp_all

/-- the updates of nodes that a call makes are among those allowed by `U` -/
def Call.Upd (U : NodeId → (NodeImpl T → NodeImpl T) → Prop) {β : Type} : Call T β → Prop
  | .setParent n p => U n (fun s => { s with parent := some p }) ∧
      U p (fun s => { s with children := s.children ++ [n] })
  | .removeParent n p => U n (fun s => { s with parent := none }) ∧
      U p (fun s => { s with children := s.children.filter (fun x => x != n) })
  | .setMimicParent n p m => U n (fun s => { s with mimicParent := some p }) ∧
      U p (fun s => { s with mimicChildren := s.mimicChildren ++ [n] }) ∧
      U n (fun s => { s with mimic := some m })
  | .setLink n l => U n fun s => { s with link := l }
  | .setOrigin n t => U n fun s => { s with joint := s.joint.setOrigin t }
  | .setJointPosition _ _ => ∀ c y, U c fun s => { s with joint := (s.joint.setJointPosition y).1 }
  | .setJointPositionClamped n x => U n fun s => { s with joint := s.joint.setJointPositionClamped x }
  | .setJointPositionUnchecked n x => U n fun s => { s with joint := s.joint.setJointPositionUnchecked x }
  | .chainSetOrigin c t => ∀ n ∈ c.nodes, U n fun s => { s with joint := s.joint.setOrigin t }
  | .setJointPositions _ _ => ∀ c y, U c fun s => { s with joint := (s.joint.setJointPosition y).1 }
  | .setJointPositionsClamped c xs => ∀ n ∈ c.movableNodes, ∀ y ∈ xs,
      U n fun s => { s with joint := s.joint.setJointPositionClamped y }
  | .setJointPositionsUnchecked c xs => ∀ n ∈ c.movableNodes, ∀ y ∈ xs,
      U n fun s => { s with joint := s.joint.setJointPositionUnchecked y }
  | .updateTransforms _ => ∀ n t, U n fun s => { s with joint := s.joint.setWorldTransform t }
  | .updateLinkTransforms _ => (∀ n t, U n fun s => { s with joint := s.joint.setWorldTransform t }) ∧
      ∀ n t, U n fun s => { s with link := s.link.map (Chain.placeLink t) }
  | .jacobian _ => ∀ n t, U n fun s => { s with joint := s.joint.setWorldTransform t }
  | .centerOfMass _ => ∀ n t, U n fun s => { s with joint := s.joint.setWorldTransform t }
  | .solve _ _ _ _ => (∀ n t, U n fun s => { s with joint := s.joint.setWorldTransform t }) ∧
      (∀ n y, U n fun s => { s with joint := s.joint.setJointPositionClamped y }) ∧
      ∀ c y, U c fun s => { s with joint := (s.joint.setJointPosition y).1 }
  | .updateVelocities _ => False
  | .cloneChain _ _ => False
  | _ => True

theorem keep_call_of {P : NodeId → NodeImpl T → Prop}
    (imp : ∀ n s, P n s → LockInv M F R K n s) (new : ∀ j m, lo ≤ m → P m (NodeImpl.fresh j)) (a0 : ∀ n, A [] n) (a1 : ∀ n c, K n c → A [n] c) (D : Prop) (ok : List NodeId → NodeId → Prop)
    (acq : D → ∀ L n, ok L n → A L n)
    (down : D → ∀ L n m, ok L n → R n m → ok (n :: L) m) (ok0 : D → ∀ n, ok [] n)
    {β : Type} (c : Call T β) (l : LockCall F R D pk c) (up : c.Upd U) :
    Keep A pk lo P U [] (fun _ => True) c.prog := by
  have mc : ∀ n s, P n s → s.mimicParent = none → ∀ c ∈ s.mimicChildren,
      A [n] c ∧ ∀ s', P c s' → s'.mimic = none → A [c, n] n ∧ A [c, n] c := by
    intro n s h e c hc
    refine ⟨a1 n c (((imp n s h).master c hc).2 e), fun s' h' e' => ?_⟩
    have := ((imp c s' h').child ((imp n s h).master c hc).1).2
    rw [e'] at this; cases this
  cases c with
  | newNode j => exact fun m hm => ⟨new j m hm, rfl, trivial⟩
  | setParent n p => exact keep_Node_setParent (a0 n) (a0 p) up.1 up.2
  | removeParent n p => exact keep_Node_removeParent (a0 n) (a0 p) up.1 up.2
  | setMimicParent n p m => exact l.elim
  | setLink n k => exact keep_poke (a0 n) up
  | setOrigin n t => exact keep_poke (a0 n) up
  | setJointPosition n x => exact keep_Node_setJointPosition (a0 n) (mc n) up
  | setJointPositionClamped n x => exact keep_poke (a0 n) up
  | setJointPositionUnchecked n x => exact keep_poke (a0 n) up
  | joint n => exact keep_Node_joint (a0 n)
  | jointPosition n => exact keep_Node_jointPosition (a0 n)
  | parent n => exact keep_Node_parent (a0 n)
  | mimicParent n => exact keep_Node_mimicParent (a0 n)
  | children n => exact keep_Node_children (a0 n)
  | link n => exact keep_Node_link (a0 n)
  | isRoot n => exact keep_Node_isRoot (a0 n)
  | isEnd n => exact keep_Node_isEnd (a0 n)
  | origin n => exact keep_Node_origin (a0 n)
  | worldTransform n => exact keep_Node_worldTransform (a0 n)
  | worldVelocity n => exact keep_Node_worldVelocity (a0 n)
  | iterAncestors fuel n => exact keep_ancestors a0 _ _
  | iterDescendants fuel n => exact keep_descendants a0 _ _
  | fromNodes ns => exact Chain.keep_fromNodes a0 ns
  | fromRoot fuel n => exact Chain.keep_fromRoot a0 _ _
  | fromEnd fuel n => exact Chain.keep_fromEnd a0 _ _
  | fromEndToRoot fuel e r => exact Chain.keep_fromEndToRoot a0 _ _ _
  | chainSetOrigin c t => exact Chain.keep_setOrigin a0 l c t up
  | chainOrigin c => exact Chain.keep_origin a0 l c
  | iterJoints c => exact Chain.keep_iterJoints a0 c
  | iterLinks c => exact Chain.keep_iterLinks a0 l c
  | find c name => exact Chain.keep_find a0 c name
  | jointPositions c =>
    rcases l with l | l
    · exact Chain.keep_jointPositions a0 l c
    · exact keep_jointPositions_movable imp a0 c l
  | setJointPositions c xs => exact Chain.keep_setJointPositions a0 c xs mc up
  | setJointPositionsClamped c xs => exact Chain.keep_setJointPositionsClamped a0 c xs up
  | setJointPositionsUnchecked c xs => exact Chain.keep_setJointPositionsUnchecked a0 c xs up
  | updateTransforms c => exact Chain.keep_updateTransforms a0 l c up
  | updateVelocities c => exact l.elim
  | updateLinkTransforms c => exact Chain.keep_updateLinkTransforms a0 l c up.1 up.2
  | cloneChain fuel c => exact l.elim
  | tryNew c => exact Chain.keep_tryNew a0 l c
  | endTransform c => exact Chain.keep_endTransform a0 c
  | display fuel c =>
    exact Chain.keep_display l.2 c ok (acq l.1) (fun L n s h hs m hm => down l.1 L n m h ((imp n s hs).kids m hm))
      (ok0 l.1) fuel
  | jacobian c => exact keep_jacobian a0 l.1 l.2 c up
  | centerOfMass c => exact keep_centerOfMass a0 l c up
  | solve s c target cs => exact keep_solveWithConstraints a0 l.1 l.2 s c target cs up.1 up.2.1 mc up.2.2

theorem keep_call (a0 : ∀ n, A [] n) (a1 : ∀ n c, K n c → A [n] c) (mlo : ∀ n, M n → n < lo)
    (flo : ∀ n, F n → n < lo) (D : Prop) (ok : List NodeId → NodeId → Prop)
    (acq : D → ∀ L n, ok L n → A L n)
    (down : D → ∀ L n m, ok L n → R n m → ok (n :: L) m) (ok0 : D → ∀ n, ok [] n)
    {β : Type} (c : Call T β) (l : LockCall F R D pk c) :
    Keep A pk lo (LockInv M F R K) (Pres (LockInv M F R K)) [] (fun _ => True) c.prog := by
  have sj : ∀ c y s, LockInv (T := T) M F R K c s →
      LockInv M F R K c { s with joint := (s.joint.setJointPosition y).1 } :=
    fun c y s h => h.joint _ (isMovable_setJointPosition _ _)
  have sc : ∀ n y s, LockInv (T := T) M F R K n s →
      LockInv M F R K n { s with joint := s.joint.setJointPositionClamped y } :=
    fun c y s h => h.joint _ (isMovable_setJointPositionClamped _ _)
  have su : ∀ n y s, LockInv (T := T) M F R K n s →
      LockInv M F R K n { s with joint := s.joint.setJointPositionUnchecked y } :=
    fun c y s h => h.joint _ rfl
  have so : ∀ n y s, LockInv (T := T) M F R K n s →
      LockInv M F R K n { s with joint := s.joint.setOrigin y } :=
    fun c y s h => h.joint _ rfl
  have sw : ∀ n y s, LockInv (T := T) M F R K n s →
      LockInv M F R K n { s with joint := s.joint.setWorldTransform y } :=
    fun c y s h => h.joint _ rfl
  have sl : ∀ n y s, LockInv (T := T) M F R K n s → LockInv M F R K n { s with link := y } :=
    fun c y s h => ⟨h.child, h.master, h.kids, h.movable⟩
  refine keep_call_of (fun _ _ h => h) (fun j m hm => ⟨fun h => absurd (mlo m h) (Nat.not_lt.2 hm),
    fun c hc => (by cases hc), fun c hc => (by cases hc), fun h => absurd (flo m h) (Nat.not_lt.2 hm)⟩)
    a0 a1 D ok acq down ok0 c l ?_
  cases c <;> first | trivial | skip
  case setParent n p =>
    refine ⟨fun s h => ⟨h.child, h.master, h.kids, h.movable⟩,
      fun s h => ⟨h.child, h.master, fun c hc => ?_, h.movable⟩⟩
    rcases List.mem_append.1 hc with hc | hc
    · exact h.kids c hc
    · rw [List.mem_singleton.1 hc]; exact l
  case removeParent n p =>
    exact ⟨fun s h => ⟨h.child, h.master, h.kids, h.movable⟩,
      fun s h => ⟨h.child, h.master, fun c hc => h.kids c (List.mem_filter.1 hc).1, h.movable⟩⟩
  case setLink n k => exact sl n k
  case setOrigin n t => exact so n t
  case setJointPositionClamped n x => exact sc n x
  case setJointPositionUnchecked n x => exact su n x
  case chainSetOrigin c t => exact fun n _ => so n t
  case setJointPositionsClamped c xs => exact fun n _ y _ => sc n y
  case setJointPositionsUnchecked c xs => exact fun n _ y _ => su n y
  case updateLinkTransforms c =>
    exact ⟨sw, fun n t s h => ⟨h.child, h.master, h.kids, h.movable⟩⟩

/-- what `mimic_parent()` tells about the node -/
theorem keep_Node_mimicParent' {P : NodeId → NodeImpl T → Prop} {L : List NodeId} {n : NodeId}
    (a : A L n) : Keep A pk lo P U L (fun o => o.isSome → ∃ s, P n s ∧ s.mimicParent.isSome)
      (Node.mimicParent n : KProg T _) := by
  refine lk_lock a (lk_read fun s hs => ?_)
  cases e : s.mimicParent with
  | none => exact lk_unlock (keep_pure fun h => by cases h)
  | some w => exact lk_upgrade fun b => lk_unlock (keep_pure fun _ => ⟨s, hs, by simp [e]⟩)

/-- cloning locks an original node and, meanwhile, copies; it writes to copies only -/
theorem Chain.keep_clone {P : NodeId → NodeImpl T → Prop} (a0 : ∀ n, A [] n) (hk : pk []) (c : Chain)
    (fuel : Nat) (a2 : ∀ n m, n ∈ c.nodes → lo ≤ m → A [n] m)
    (free : ∀ n s m, n ∈ c.nodes → P n s → lo ≤ m → P m (NodeImpl.fresh s.joint))
    (freeU : ∀ m f, lo ≤ m → (∀ s, (f s).joint = s.joint) → U m f)
    (hk1 : ∀ n s s', n ∈ c.nodes → P n s → s.mimicParent.isSome → P n s' → s'.mimic = none → pk [n]) :
    Keep A pk lo P U [] (fun _ => True) (c.clone fuel : KProg T _) := by
  unfold clone; split
  · exact keep_pure'
  · refine (keep_Node_isRoot (a0 _)).bind fun b _ => ?_
    split
    · exact hk
    · refine Keep.bind (keep_mapList (Q := fun m => lo ≤ m) fun n hn => ?_) fun ns hns => ?_
      · refine lk_lock (a0 n) (lk_read fun s hs => lk_alloc fun m hm => ⟨free n s _ hn hs hm, ?_⟩)
        refine lk_unlock (lk_lock (a0 n) (lk_read fun s _ => ?_))
        refine Keep.lk (keep_poke (a2 n m hn hm) (freeU _ _ hm fun _ => rfl)) fun _ _ => ?_
        exact lk_unlock (keep_pure hm)
      · refine Keep.bind (keep_forEach fun nn hnn => ?_) fun _ _ => ?_
        · have h1 : nn.1 ∈ c.nodes := (List.of_mem_zip hnn).1
          have h2 : lo ≤ nn.2 := hns _ (List.of_mem_zip hnn).2
          refine (keep_Node_parent (a0 _)).bind fun o _ => ?_
          have second : Keep A pk lo P U [] (fun _ => True) (do
              match ← Node.mimicParent nn.1 with
              | some m =>
                let i ← expect (position m c.nodes) "called `Option::unwrap()` on a `None` value"
                let m' ← expect ns[i]? "index out of bounds"
                doLock nn.1
                let s ← doRead nn.1
                let mimic ← expect s.mimic "called `Option::unwrap()` on a `None` value"
                Node.setMimicParent nn.2 m' mimic
                doUnlock nn.1
              | none => pure () : KProg T Unit) := by
            refine (keep_Node_mimicParent' (a0 _)).bind fun o ho => ?_
            cases o with
            | none => exact keep_pure'
            | some m =>
              obtain ⟨s0, hs0, e0⟩ := ho rfl
              refine (keep_expect' hk).bind fun i _ => ?_
              refine (keep_expect hk (Q := fun m' => m' ∈ ns) fun m' e =>
                List.mem_of_getElem? e).bind fun m' hm' => ?_
              have h3 := hns m' hm'
              refine lk_lock (a0 _) (lk_read fun s hs => ?_)
              cases em : s.mimic with
              | none => exact hk1 _ s0 s h1 hs0 e0 hs em
              | some mi =>
                show Lk A pk lo P U _ (Node.setMimicParent nn.2 m' mi >>= fun _ => doUnlock nn.1) _
                refine Keep.lk (keep_Node_setMimicParent (a2 _ _ h1 h2) (a2 _ _ h1 h3)
                  (freeU _ _ h2 fun _ => rfl) (freeU _ _ h3 fun _ => rfl) (freeU _ _ h2 fun _ => rfl))
                  fun _ _ => lk_doUnlock
          cases o with
          | none => exact second
          | some p =>
            refine (keep_expect' hk).bind fun i _ => ?_
            refine (keep_expect hk (Q := fun p' => p' ∈ ns) fun p' e =>
                List.mem_of_getElem? e).bind fun p' hp' => ?_
            exact (keep_Node_setParent (a0 _) (a0 _) (freeU _ _ h2 fun _ => rfl) (freeU _ _ (hns p' hp') fun _ => rfl)).bind fun _ _ => second
        · refine (keep_expect' hk).bind fun r _ => ?_
          refine (keep_Node_isRoot (a0 _)).bind fun b _ => ?_
          split
          · exact hk
          · exact Chain.keep_fromRoot a0 _ _

omit [Scalar T] in
theorem Client.Only.mono {φ ψ : ∀ {β : Type}, Call T β → Prop}
    (i : ∀ {β : Type} (c : Call T β), φ c → ψ c) {α : Type} (cl : Client T α) (a : cl.Only φ) :
    cl.Only ψ := by
  induction cl with
  | done x => trivial
  | call c k ih => exact ⟨i c a.1, fun r => ih r (a.2 r)⟩

theorem keep_client {P : NodeId → NodeImpl T → Prop} {φ : ∀ {β : Type}, Call T β → Prop}
    (hφ : ∀ {β : Type} (c : Call T β), φ c → Keep A pk lo P U [] (fun _ => True) c.prog)
    {α : Type} (cl : Client T α) (a : cl.Only φ) :
    Keep A pk lo P U [] (fun _ => True) cl.prog := by
  induction cl with
  | done x => exact ⟨rfl, trivial⟩
  | call c k ih => exact (hφ c a.1).bind fun r _ => ih r (a.2 r)

end K
