import Verif.Lemmas.Shared
/-!
# The calls of a thread that works on a robot with a common base
-/

set_option linter.unusedSectionVars false

namespace K
open Prog
variable {X α β γ δ ε : Type} {R S : NodeId → Prop} {B : NodeId → X} {C : X → Prop}

/-! ## combinators -/

theorem shares_pure {Q : α → Prop} {a : α} (h : Q a) : Shares R S B C Q (pure a : Prog X α) none := ⟨rfl, h⟩
theorem shares_unit {a : α} : Shares R S B C (fun _ => True) (pure a : Prog X α) none := ⟨rfl, trivial⟩
theorem Shares.any {Q : α → Prop} {p : Prog X α} (h : Shares R S B C Q p none) :
    Shares R S B C (fun _ => True) p none := h.mono fun _ _ => trivial
theorem shares_doLock {n : NodeId} (h : R n) : Shares R S B C (fun _ => True) (doLock n) none :=
  ⟨rfl, .inl ⟨h, rfl, trivial⟩⟩
theorem shares_doUnlock {n : NodeId} (h : R n) : Shares R S B C (fun _ => True) (doUnlock n) none := ⟨h, rfl, trivial⟩
theorem shares_doRead {n : NodeId} (h : R n) : Shares R S B C C (doRead n) none := ⟨h, fun _ hs => ⟨rfl, hs⟩⟩
theorem shares_doWrite {n : NodeId} {f : X → X} (h : R n) (hf : ∀ s, C s → C (f s)) :
    Shares R S B C (fun _ => True) (doWrite n f) none := ⟨h, hf, rfl, trivial⟩
/-- what is read from a node -/
def ReadOf (R S : NodeId → Prop) (B : NodeId → X) (C : X → Prop) (n : NodeId) (s : X) : Prop := R n ∧ C s ∨ S n ∧ s = B n
theorem shares_peek {n : NodeId} (h : InSight R S n) : Shares R S B C (ReadOf R S B C n) (peek n) none := by
  rcases h with h | h
  · exact ⟨rfl, .inl ⟨h, h, fun s hs => ⟨h, rfl, .inl ⟨h, hs⟩⟩⟩⟩
  · exact ⟨rfl, .inr ⟨h, rfl, rfl, rfl, .inr ⟨h, rfl⟩⟩⟩
theorem shares_poke {n : NodeId} {f : X → X} (h : R n) (hf : ∀ s, C s → C (f s)) :
    Shares R S B C (fun _ => True) (poke n f) none :=
  (shares_doLock h).bind fun _ _ => (shares_doWrite h hf).bind fun _ _ => shares_doUnlock h
/-- a write to a common node that changes nothing -/
theorem shares_poke_same {n : NodeId} {f : X → X} (h : S n) (hf : f (B n) = B n) :
    Shares R S B C (fun _ => True) (poke n f) none :=
  ⟨rfl, .inr ⟨h, rfl, hf, rfl, rfl, trivial⟩⟩
theorem shares_expect {Q : α → Prop} {o : Option α} {m : String} (h : ∀ a, o = some a → Q a) :
    Shares R S B C Q (expect o m) none := by
  cases o with
  | none => exact rfl
  | some a => exact ⟨rfl, h a rfl⟩
theorem shares_expect' {o : Option α} {m : String} : Shares R S B C (fun _ => True) (expect o m) none :=
  shares_expect fun _ _ => trivial
theorem shares_ofExcept {o : Except String α} : Shares R S B C (fun _ => True) (ofExcept o) none := by
  cases o
  · exact rfl
  · exact ⟨rfl, trivial⟩

theorem shares_forEach {xs : List γ} {f : γ → Prog X Unit}
    (h : ∀ x ∈ xs, Shares R S B C (fun _ => True) (f x) none) : Shares R S B C (fun _ => True) (forEach xs f) none := by
  induction xs with
  | nil => exact ⟨rfl, trivial⟩
  | cons x xs ih =>
    exact (h x (by simp)).bind fun _ _ => ih fun y hy => h y (by simp [hy])
theorem shares_mapList {Q : δ → Prop} {xs : List γ} {f : γ → Prog X δ}
    (h : ∀ x ∈ xs, Shares R S B C Q (f x) none) : Shares R S B C (fun l => ∀ y ∈ l, Q y) (mapList xs f) none := by
  induction xs with
  | nil => exact ⟨rfl, fun y hy => by cases hy⟩
  | cons x xs ih =>
    refine (h x (by simp)).bind fun y hy => ?_
    refine (ih fun z hz => h z (by simp [hz])).bind fun ys hys => ?_
    exact shares_pure (by simpa using ⟨hy, hys⟩)
theorem shares_filterList {xs : List γ} {f : γ → Prog X Bool}
    (h : ∀ x ∈ xs, Shares R S B C (fun _ => True) (f x) none) :
    Shares R S B C (fun l => ∀ y ∈ l, y ∈ xs) (filterList xs f) none := by
  induction xs with
  | nil => exact ⟨rfl, fun y hy => by cases hy⟩
  | cons x xs ih =>
    refine (h x (by simp)).bind fun y hy => ?_
    refine (ih fun z hz => h z (by simp [hz])).bind fun ys hys => ?_
    refine shares_pure ?_
    intro z hz
    split at hz
    · rcases List.mem_cons.1 hz with h | h
      · simp [h]
      · simp [hys z h]
    · simp [hys z hz]
theorem shares_tryEach {xs : List γ} {f : γ → Prog X (Except ε Unit)}
    (h : ∀ x ∈ xs, Shares R S B C (fun _ => True) (f x) none) : Shares R S B C (fun _ => True) (tryEach xs f) none := by
  induction xs with
  | nil => exact ⟨rfl, trivial⟩
  | cons x xs ih =>
    refine (h x (by simp)).bind fun r _ => ?_
    cases r with
    | error e => exact shares_pure trivial
    | ok u => exact ih fun y hy => h y (by simp [hy])
theorem shares_findFirst {xs : List γ} {f : γ → Prog X Bool}
    (h : ∀ x ∈ xs, Shares R S B C (fun _ => True) (f x) none) :
    Shares R S B C (fun o => ∀ y, o = some y → y ∈ xs) (findFirst xs f) none := by
  induction xs with
  | nil => exact ⟨rfl, fun y hy => by cases hy⟩
  | cons x xs ih =>
    refine (h x (by simp)).bind fun b _ => ?_
    cases b with
    | true => exact shares_pure (by simp)
    | false =>
      exact (ih fun y hy => h y (by simp [hy])).mono fun o ho y hy => by simp [ho y hy]

/-! ## the methods -/
variable {T : Type} [Scalar T] {B : NodeId → NodeImpl T}

/-- what is known of the common nodes -/
structure BaseOk (R S : NodeId → Prop) (B : NodeId → NodeImpl T) : Prop where
  apart : ∀ n, R n → ¬ S n
  parent : ∀ n p, S n → (B n).parent = some p → S p
  mimicParent : ∀ n p, S n → (B n).mimicParent = some p → S p
  root : ∀ n, S n → (B n).parent = none →
    (B n).joint.worldTransformCache = some (Iso.one.mul (B n).joint.localTransform)
  known : ∀ n p, S n → (B n).parent = some p → ∃ t, (B p).joint.worldTransformCache = some t ∧
    (B n).joint.worldTransformCache = some (t.mul (B n).joint.localTransform)

/-- the program of a thread with the nodes `R` and the common nodes `S` -/
abbrev Sh (R S : NodeId → Prop) (B : NodeId → NodeImpl T) (Q : α → Prop) (p : KProg T α) : Prop :=
  Shares R S B (NodeImpl.LinksUp R S) Q p none

theorem NodeImpl.LinksUp.withJoint {s : NodeImpl T} (l : s.LinksUp R S) (j : Joint T) :
    ({ s with joint := j } : NodeImpl T).LinksUp R S := ⟨l.1, l.2, l.3, l.4⟩
theorem NodeImpl.LinksUp.withLink {s : NodeImpl T} (l : s.LinksUp R S) (x : Option (Link T)) :
    ({ s with link := x } : NodeImpl T).LinksUp R S := ⟨l.1, l.2, l.3, l.4⟩

theorem shares_Node_joint_of {n : NodeId} (h : InSight R S n) :
    Sh R S B (fun j => S n → ¬ R n → j = (B n).joint) (Node.joint n) :=
  (shares_peek h).bind fun s hs => shares_pure fun sn rn => by
    rcases hs with x | x
    · exact absurd x.1 rn
    · rw [x.2]
theorem shares_Node_joint {n : NodeId} (h : InSight R S n) : Sh R S B (fun _ => True) (Node.joint n) :=
  (shares_Node_joint_of h).any
theorem shares_Node_jointPosition {n : NodeId} (h : InSight R S n) : Sh R S B (fun _ => True) (Node.jointPosition n) :=
  (shares_peek h).bind fun _ _ => shares_unit
theorem shares_Node_children (bs : BaseOk R S B) {n : NodeId} (h : InSight R S n) :
    Sh R S B (fun l => R n → ∀ c ∈ l, R c) (Node.children n) :=
  (shares_peek h).bind fun _ hs => shares_pure fun rn => by
    rcases hs with x | x
    · exact x.2.children
    · exact absurd x.1 (bs.apart n rn)
theorem shares_Node_isRoot {n : NodeId} (h : InSight R S n) : Sh R S B (fun _ => True) (Node.isRoot n) :=
  (shares_peek h).bind fun _ _ => shares_unit
theorem shares_Node_isEnd {n : NodeId} (h : InSight R S n) : Sh R S B (fun _ => True) (Node.isEnd n) :=
  (shares_peek h).bind fun _ _ => shares_unit
theorem shares_Node_link {n : NodeId} (h : InSight R S n) : Sh R S B (fun _ => True) (Node.link n) :=
  (shares_peek h).bind fun _ _ => shares_unit
theorem shares_Node_origin {n : NodeId} (h : InSight R S n) : Sh R S B (fun _ => True) (Node.origin n) :=
  (shares_Node_joint h).bind fun _ _ => shares_unit
theorem shares_Node_worldTransform_of {n : NodeId} (h : InSight R S n) :
    Sh R S B (fun o => S n → ¬ R n → o = (B n).joint.worldTransformCache) (Node.worldTransform n) :=
  (shares_Node_joint_of h).bind fun j hj => shares_pure fun sn rn => by rw [hj sn rn]; rfl
theorem shares_Node_worldTransform {n : NodeId} (h : InSight R S n) : Sh R S B (fun _ => True) (Node.worldTransform n) :=
  (shares_Node_worldTransform_of h).any
theorem shares_Node_worldVelocity {n : NodeId} (h : InSight R S n) : Sh R S B (fun _ => True) (Node.worldVelocity n) :=
  (shares_Node_joint h).bind fun _ _ => shares_unit
theorem shares_Node_parent_own {n : NodeId} (h : R n) :
    Sh R S B (fun o => ∀ p, o = some p → InSight R S p) (Node.parent n) := by
  refine (shares_doLock h).bind fun _ _ => (shares_doRead h).bind fun s hs => ?_
  cases e : s.parent with
  | none => exact (shares_doUnlock h).bind fun _ _ => shares_pure (by simp)
  | some w =>
    have hw := hs.parent w e
    exact ⟨hw, ⟨h, rfl, fun p e => by cases e; exact hw⟩, fun _ => ⟨h, rfl, (fun p e => by cases e)⟩⟩
theorem shares_Node_parent_base (bs : BaseOk R S B) {n : NodeId} (h : S n) :
    Sh R S B (fun o => o = (B n).parent) (Node.parent n) := by
  refine ⟨rfl, .inr ⟨h, rfl, ?_⟩⟩
  show Shares R S B _ _ (match (B n).parent with
    | some weak => doUpgrade weak >>= fun alive => doUnlock n >>= fun _ => pure (if alive then some weak else none)
    | none => doUnlock n >>= fun _ => pure none) (some n)
  cases e : (B n).parent with
  | none => exact ⟨rfl, rfl, rfl⟩
  | some w =>
    have hw := bs.parent n w h e
    exact ⟨.inr hw, ⟨rfl, rfl, rfl⟩, fun r => absurd hw (bs.apart w r)⟩
theorem shares_Node_parent (bs : BaseOk R S B) {n : NodeId} (h : InSight R S n) :
    Sh R S B (fun o => ∀ p, o = some p → InSight R S p) (Node.parent n) := by
  rcases h with h | h
  · exact shares_Node_parent_own h
  · exact (shares_Node_parent_base bs h).mono fun o e p hp => .inr (bs.parent n p h (e ▸ hp))
theorem shares_Node_mimicParent (bs : BaseOk R S B) {n : NodeId} (h : InSight R S n) :
    Sh R S B (fun o => ∀ p, o = some p → InSight R S p) (Node.mimicParent n) := by
  rcases h with h | h
  · refine (shares_doLock h).bind fun _ _ => (shares_doRead h).bind fun s hs => ?_
    cases e : s.mimicParent with
    | none => exact (shares_doUnlock h).bind fun _ _ => shares_pure (by simp)
    | some w =>
      have hw := hs.mimicParent w e
      exact ⟨hw, ⟨h, rfl, fun p e => by cases e; exact hw⟩, fun _ => ⟨h, rfl, (fun p e => by cases e)⟩⟩
  · refine ⟨rfl, .inr ⟨h, rfl, ?_⟩⟩
    show Shares R S B _ _ (match (B n).mimicParent with
      | some weak => doUpgrade weak >>= fun alive => doUnlock n >>= fun _ => pure (if alive then some weak else none)
      | none => doUnlock n >>= fun _ => pure none) (some n)
    cases e : (B n).mimicParent with
    | none => exact ⟨rfl, rfl, (fun p e => by cases e)⟩
    | some w =>
      have hw := bs.mimicParent n w h e
      exact ⟨.inr hw, ⟨rfl, rfl, fun p e => by cases e; exact .inr hw⟩, fun r => absurd hw (bs.apart w r)⟩
theorem shares_Node_parentWorldTransform (bs : BaseOk R S B) {n : NodeId} (h : InSight R S n) :
    Sh R S B (fun o => S n → ∃ t, o = some t ∧ (B n).joint.worldTransformCache = some (t.mul (B n).joint.localTransform))
      (Node.parentWorldTransform n) := by
  rcases h with h | h
  · refine (shares_Node_parent_own h).bind fun o ho => ?_
    cases o with
    | none => exact shares_pure fun sn => absurd sn (bs.apart n h)
    | some p => exact (shares_Node_worldTransform (ho p rfl)).mono fun _ _ sn => absurd sn (bs.apart n h)
  · refine (shares_Node_parent_base bs h).bind fun o ho => ?_
    subst ho
    cases e : (B n).parent with
    | none => exact shares_pure fun _ => ⟨_, rfl, bs.root n h e⟩
    | some p =>
      have sp := bs.parent n p h e
      refine (shares_Node_worldTransform_of (.inr sp)).mono fun o ho _ => ?_
      obtain ⟨t, e1, e2⟩ := bs.known n p h e
      exact ⟨t, (ho sp fun r => bs.apart p r sp).trans e1, e2⟩
theorem shares_Node_parentWorldVelocity {n : NodeId} (h : R n) :
    Sh R S B (fun _ => True) (Node.parentWorldVelocity n) := by
  refine (shares_Node_parent_own h).bind fun o ho => ?_
  cases o with
  | none => exact shares_unit
  | some p => exact shares_Node_worldVelocity (ho p rfl)

theorem shares_Node_setParent {n p : NodeId} (h : R n) (hp : R p) : Sh R S B (fun _ => True) (Node.setParent n p) :=
  (shares_poke h fun s hs => ⟨fun q e => by cases e; exact .inl hp, hs.2, hs.3, hs.4⟩).bind fun _ _ =>
    shares_poke hp fun s hs => ⟨hs.1, fun c hc => by
      rcases List.mem_append.1 hc with x | x
      · exact hs.2 c x
      · rw [List.mem_singleton.1 x]; exact h, hs.3, hs.4⟩
theorem shares_Node_removeParent {n p : NodeId} (h : R n) (hp : R p) :
    Sh R S B (fun _ => True) (Node.removeParent n p) :=
  (shares_poke h fun s hs => ⟨fun q e => (by cases e), hs.2, hs.3, hs.4⟩).bind fun _ _ =>
    shares_poke hp fun s hs => ⟨hs.1, fun c hc => hs.2 c (List.mem_filter.1 hc).1, hs.3, hs.4⟩
theorem shares_Node_setMimicParent {n p : NodeId} (m : Mimic T) (h : R n) (hp : R p) :
    Sh R S B (fun _ => True) (Node.setMimicParent n p m) :=
  (shares_poke h fun s hs => ⟨hs.1, hs.2, fun q e => by cases e; exact .inl hp, hs.4⟩).bind fun _ _ =>
    (shares_poke hp fun s hs => ⟨hs.1, hs.2, hs.3, fun c hc => by
      rcases List.mem_append.1 hc with x | x
      · exact hs.4 c x
      · rw [List.mem_singleton.1 x]; exact h⟩).bind fun _ _ =>
    shares_poke h fun s hs => ⟨hs.1, hs.2, hs.3, hs.4⟩

theorem shares_Node_setJointPosition {n : NodeId} (x : T) (h : R n) :
    Sh R S B (fun _ => True) (Node.setJointPosition n x) := by
  refine (shares_doLock h).bind fun _ _ => (shares_doRead h).bind fun s hs => ?_
  split
  · exact (shares_doUnlock h).bind fun _ _ => shares_unit
  · refine (shares_doWrite h fun s hs => hs.withJoint _).bind fun _ _ => ?_
    split
    · exact (shares_doUnlock h).bind fun _ _ => shares_unit
    · refine (shares_tryEach fun c hc => ?_).bind fun _ _ => (shares_doUnlock h).bind fun _ _ => shares_unit
      have hc := hs.mimicChildren c hc
      refine (shares_doLock hc).bind fun _ _ => (shares_doRead hc).bind fun sc _ => ?_
      split
      · exact (shares_doWrite hc fun s' hs' => hs'.withJoint _).bind fun _ _ =>
          (shares_doUnlock hc).bind fun _ _ => shares_unit
      · exact (shares_Node_joint (.inl h)).bind fun _ _ => (shares_Node_joint (.inl hc)).bind fun _ _ =>
          (shares_doUnlock hc).bind fun _ _ => shares_unit

theorem shares_ancestors (bs : BaseOk R S B) (fuel : Nat) (o : Option NodeId) (ho : ∀ n, o = some n → InSight R S n) :
    Sh R S B (fun l => ∀ n ∈ l, InSight R S n) (ancestors fuel o) := by
  induction fuel generalizing o with
  | zero =>
    cases o with
    | none => exact ⟨rfl, fun n hn => by cases hn⟩
    | some n => exact rfl
  | succ k ih =>
    cases o with
    | none => exact ⟨rfl, fun n hn => by cases hn⟩
    | some n =>
      refine (shares_Node_parent bs (ho n rfl)).bind fun p hp => (ih p hp).bind fun l hl => ?_
      exact shares_pure (by simpa using ⟨ho n rfl, hl⟩)
theorem shares_ancestorsUntil (bs : BaseOk R S B) (stop : NodeId) (fuel : Nat) (o : Option NodeId)
    (ho : ∀ n, o = some n → InSight R S n) : Sh R S B (fun l => ∀ n ∈ l, InSight R S n) (ancestorsUntil stop fuel o) := by
  induction fuel generalizing o with
  | zero =>
    cases o with
    | none => exact ⟨rfl, fun n hn => by cases hn⟩
    | some n => exact rfl
  | succ k ih =>
    cases o with
    | none => exact ⟨rfl, fun n hn => by cases hn⟩
    | some n =>
      refine (shares_Node_parent bs (ho n rfl)).bind fun p hp => ?_
      split
      · exact shares_pure (by simpa using ho n rfl)
      · exact (ih p hp).bind fun l hl => shares_pure (by simpa using ⟨ho n rfl, hl⟩)
theorem shares_descendants (bs : BaseOk R S B) (fuel : Nat) (st : List NodeId) (hst : ∀ n ∈ st, R n) :
    Sh R S B (fun l => ∀ n ∈ l, R n) (descendants fuel st) := by
  induction fuel generalizing st with
  | zero =>
    cases st with
    | nil => exact ⟨rfl, fun n hn => by cases hn⟩
    | cons n st => exact rfl
  | succ k ih =>
    cases st with
    | nil => exact ⟨rfl, fun n hn => by cases hn⟩
    | cons n st =>
      have rn := hst n (by simp)
      refine (shares_Node_children bs (.inl rn)).bind fun cs hcs => (ih _ ?_).bind fun l hl => ?_
      · intro m hm
        rcases List.mem_append.1 hm with x | x
        · exact hcs rn m (List.mem_reverse.1 x)
        · exact hst m (by simp [x])
      · exact shares_pure (by simpa using ⟨rn, hl⟩)

namespace Chain
theorem shares_fromNodes {ns : List NodeId} (h : ∀ n ∈ ns, InSight R S n) :
    Sh R S B (fun c => c.nodes = ns ∧ ∀ n ∈ c.movableNodes, n ∈ ns) (fromNodes ns) := by
  refine (shares_filterList fun n hn => ?_).bind fun l hl => shares_pure ⟨rfl, hl⟩
  exact (shares_Node_joint (h n hn)).bind fun _ _ => shares_unit
theorem shares_fromNodes_in {P : NodeId → Prop} {ns : List NodeId} (i : ∀ n, P n → InSight R S n) (h : ∀ n ∈ ns, P n) :
    Sh R S B (Chain.In P) (fromNodes ns) :=
  (shares_fromNodes fun n hn => i n (h n hn)).mono fun c hc => ⟨fun n hn => h n (hc.1 ▸ hn), fun n hn => h n (hc.2 n hn)⟩
theorem shares_fromRoot (bs : BaseOk R S B) (fuel : Nat) {n : NodeId} (h : R n) :
    Sh R S B (Chain.In R) (fromRoot fuel n) :=
  (shares_descendants bs _ _ (by simpa using h)).bind fun _ hl => shares_fromNodes_in (fun _ h => .inl h) hl
theorem shares_fromEnd (bs : BaseOk R S B) (fuel : Nat) {n : NodeId} (h : InSight R S n) :
    Sh R S B (Chain.In (InSight R S)) (fromEnd fuel n) :=
  (shares_ancestors bs _ _ (by simpa using h)).bind fun _ hl => shares_fromNodes_in (fun _ h => h) (by simpa using hl)
theorem shares_fromEndToRoot (bs : BaseOk R S B) (fuel : Nat) {n : NodeId} (r : NodeId) (h : InSight R S n) :
    Sh R S B (Chain.In (InSight R S)) (fromEndToRoot fuel n r) :=
  (shares_ancestorsUntil bs _ _ _ (by simpa using h)).bind fun _ hl =>
    shares_fromNodes_in (fun _ h => h) (by simpa using hl)

variable {c : Chain}

theorem shares_setOrigin (h : c.In R) (t : Iso T) : Sh R S B (fun _ => True) (c.setOrigin t) := by
  unfold setOrigin; split
  · exact rfl
  · rename_i e; exact shares_poke (h.nodes _ (by simp [e])) fun s hs => hs.withJoint _
theorem shares_origin (h : c.In (InSight R S)) : Sh R S B (fun _ => True) c.origin := by
  unfold origin; split
  · exact rfl
  · rename_i e; exact shares_Node_origin (h.nodes _ (by simp [e]))
theorem shares_iterJoints (h : c.In (InSight R S)) : Sh R S B (fun _ => True) c.iterJoints :=
  (shares_mapList fun n hn => shares_Node_joint (h.movable n hn)).any
theorem shares_iterLinks (h : c.In R) : Sh R S B (fun _ => True) c.iterLinks := by
  refine (shares_mapList (Q := fun _ => True) fun n hn => ?_).bind fun _ _ => shares_unit
  have hn := h.nodes n hn
  refine (shares_Node_link (.inl hn)).bind fun o _ => ?_
  split
  · exact (shares_doLock hn).bind fun _ _ => (shares_doRead hn).bind fun _ _ =>
      shares_expect'.bind fun _ _ => (shares_doUnlock hn).bind fun _ _ => shares_unit
  · exact shares_unit
theorem shares_find (h : c.In (InSight R S)) (s : String) :
    Sh R S B (fun o => ∀ n, o = some n → n ∈ c.nodes) (c.find s) :=
  shares_findFirst fun n hn => Shares.bind (shares_Node_joint (h.nodes n hn)) fun _ _ => shares_unit
theorem shares_jointPositions (h : c.Of R S) : Sh R S B (fun _ => True) c.jointPositions := by
  refine (shares_mapList (Q := fun _ => True) fun n hn => ?_).any
  have hn := h.movable n hn
  exact (shares_doLock hn).bind fun _ _ => (shares_doRead hn).bind fun _ _ =>
    shares_expect'.bind fun _ _ => (shares_doUnlock hn).bind fun _ _ => shares_unit
theorem shares_setJointPositions (h : c.Of R S) (xs : List T) : Sh R S B (fun _ => True) (c.setJointPositions xs) := by
  unfold setJointPositions; split
  · exact shares_unit
  · exact shares_tryEach fun jp hjp => shares_Node_setJointPosition _ (h.movable _ (List.of_mem_zip hjp).1)
theorem shares_setJointPositionsClamped (h : c.Of R S) (xs : List T) :
    Sh R S B (fun _ => True) (c.setJointPositionsClamped xs) :=
  shares_forEach fun jp hjp => shares_poke (h.movable _ (List.of_mem_zip hjp).1) fun s hs => hs.withJoint _
theorem shares_setJointPositionsUnchecked (h : c.Of R S) (xs : List T) :
    Sh R S B (fun _ => True) (c.setJointPositionsUnchecked xs) :=
  shares_forEach fun jp hjp => shares_poke (h.movable _ (List.of_mem_zip hjp).1) fun s hs => hs.withJoint _
theorem shares_updateTransform (bs : BaseOk R S B) {n : NodeId} (hn : InSight R S n) :
    Sh R S B (fun _ => True) (updateTransform n) := by
  refine (shares_Node_parentWorldTransform bs hn).bind fun o ho => ?_
  refine (shares_expect (Q := fun t => o = some t) fun t e => e).bind fun t ht => ?_
  refine (shares_Node_joint_of hn).bind fun j hj => ?_
  refine Shares.bind (Q := fun _ => True) ?_ fun _ _ => shares_unit
  rcases hn with rn | sn
  · exact shares_poke rn fun s hs => hs.withJoint _
  · refine shares_poke_same sn ?_
    obtain ⟨t', e1, e2⟩ := ho sn
    rw [hj sn fun r => bs.apart n r sn]
    obtain rfl : t' = t := Option.some.inj (e1.symm.trans ht)
    have e3 : (B n).joint.setWorldTransform (t'.mul (B n).joint.localTransform) = (B n).joint := by
      unfold Joint.setWorldTransform; rw [← e2]
    rw [e3]
theorem shares_updateTransforms (bs : BaseOk R S B) (h : ∀ n ∈ c.nodes, InSight R S n) :
    Sh R S B (fun _ => True) c.updateTransforms :=
  (shares_mapList (Q := fun _ => True) fun n hn => shares_updateTransform bs (h n hn)).any
theorem shares_updateVelocities (bs : BaseOk R S B) (h : c.In R) : Sh R S B (fun _ => True) c.updateVelocities := by
  refine (shares_updateTransforms bs fun n hn => .inl (h.nodes n hn)).bind fun _ _ => ?_
  refine (shares_mapList (Q := fun _ => True) fun n hn => ?_).any
  have hn := h.nodes n hn
  refine (shares_Node_parentWorldTransform bs (.inl hn)).bind fun _ _ => shares_expect'.bind fun t _ => ?_
  refine (shares_Node_parentWorldVelocity hn).bind fun _ _ => shares_expect'.bind fun t _ => ?_
  refine (shares_doLock hn).bind fun _ _ => (shares_doRead hn).bind fun s _ => ?_
  have fin : ∀ v, Sh R S B (fun _ => True) (do
      doUnlock n
      poke n fun s => { s with joint := s.joint.setWorldVelocity v }
      return v : KProg T (Velocity T)) := fun v =>
    (shares_doUnlock hn).bind fun _ _ => (shares_poke hn fun s hs => hs.withJoint _).bind fun _ _ => shares_unit
  refine Shares.bind (Q := fun _ => True) ?_ fun v _ => fin v
  split
  · exact shares_unit
  · refine (shares_Node_parent_own hn).bind fun o ho => ?_
    refine (shares_expect (Q := InSight R S) fun p e => ho p e).bind fun p hp => ?_
    refine (shares_Node_joint hp).bind fun j _ => ?_
    refine (shares_Node_worldTransform (.inl hn)).bind fun j _ => shares_expect'.bind fun t _ => ?_
    exact (shares_Node_joint (.inl hn)).bind fun j _ => shares_expect'.bind fun t _ => shares_unit
  · refine (shares_Node_worldTransform (.inl hn)).bind fun j _ => shares_expect'.bind fun t _ => ?_
    exact (shares_Node_joint (.inl hn)).bind fun j _ => shares_expect'.bind fun t _ => shares_unit
theorem shares_updateLinkTransforms (bs : BaseOk R S B) (h : c.In R) :
    Sh R S B (fun _ => True) c.updateLinkTransforms := by
  refine (shares_updateTransforms bs fun n hn => .inl (h.nodes n hn)).bind fun _ _ => shares_forEach fun n hn => ?_
  have hn := h.nodes n hn
  refine (shares_Node_parentWorldTransform bs (.inl hn)).bind fun _ _ => shares_expect'.bind fun t _ => ?_
  exact shares_poke hn fun s hs => hs.withLink _
theorem shares_foldTransform (ns : List NodeId) (h : ∀ n ∈ ns, InSight R S n) (t : Iso T) :
    Sh R S B (fun _ => True) (foldTransform ns t) := by
  induction ns generalizing t with
  | nil => exact shares_unit
  | cons n ns ih =>
    exact (shares_Node_joint (h n (by simp))).bind fun _ _ => ih (fun m hm => h m (by simp [hm])) _
theorem shares_endTransform (h : ∀ n ∈ c.nodes, InSight R S n) : Sh R S B (fun _ => True) c.endTransform :=
  shares_foldTransform _ h _
theorem shares_tryNew (bs : BaseOk R S B) (h : c.In (InSight R S)) :
    Sh R S B (fun o => ∀ c', o = some c' → c' = c) c.tryNew := by
  unfold tryNew; split
  · exact rfl
  · refine Shares.bind (shares_findFirst fun n hn => ?_) fun o _ => shares_pure ?_
    · exact (shares_Node_children bs (h.nodes n (List.mem_of_mem_take hn))).bind fun _ _ => shares_unit
    · intro c' e
      split at e
      · cases e
      · cases e; rfl
theorem shares_fmtWithIndentLevel (c : Chain) (fuel level : Nat) {n : NodeId} (h : R n) :
    Sh R S B (fun _ => True) (c.fmtWithIndentLevel fuel level n) := by
  induction fuel generalizing level n with
  | zero => exact rfl
  | succ k ih =>
    unfold fmtWithIndentLevel
    refine Shares.bind (Q := fun _ => True) ?_ fun _ _ => ?_
    · split
      · exact (shares_peek (.inl h)).bind fun _ _ => shares_unit
      · exact shares_unit
    · refine (shares_doLock h).bind fun _ _ => (shares_doRead h).bind fun s hs => ?_
      exact (shares_mapList (Q := fun _ => True) fun m hm => ih _ (hs.children m hm)).bind fun _ _ =>
        (shares_doUnlock h).bind fun _ _ => shares_unit
theorem shares_display (h : c.In R) (fuel : Nat) : Sh R S B (fun _ => True) (c.display fuel) := by
  unfold display; split
  · exact rfl
  · rename_i e
    exact (shares_fmtWithIndentLevel _ _ _ (h.nodes _ (by simp [e]))).bind fun _ _ => shares_unit
end Chain

variable {c : Chain}

theorem shares_jacobian (bs : BaseOk R S B) (h : c.Of R S) : Sh R S B (fun _ => True) (jacobian c) := by
  refine (Chain.shares_endTransform h.nodes).bind fun _ _ => (Chain.shares_updateTransforms bs h.nodes).bind fun _ _ => ?_
  refine (shares_mapList (Q := fun _ => True) fun n hn => ?_).any
  have hn := h.movable n hn
  refine (shares_doLock hn).bind fun _ _ => (shares_doRead hn).bind fun s _ => ?_
  exact shares_expect'.bind fun t _ => shares_ofExcept.bind fun _ _ => (shares_doUnlock hn).bind fun _ _ => shares_unit
theorem shares_comLoop (ns : List NodeId) (h : ∀ n ∈ ns, InSight R S n) (a : ComAcc T) :
    Sh R S B (fun _ => True) (comLoop ns a) := by
  induction ns generalizing a with
  | nil => exact shares_unit
  | cons n ns ih =>
    have hn := h n (by simp)
    have ih := ih fun m hm => h m (by simp [hm])
    refine (shares_Node_worldTransform hn).bind fun t _ => ?_
    cases t with
    | none => exact ih _
    | some t => exact (shares_Node_link hn).bind fun _ _ => ih _
theorem shares_centerOfMass (bs : BaseOk R S B) (h : c.Of R S) : Sh R S B (fun _ => True) (centerOfMass c) :=
  (Chain.shares_updateTransforms bs h.nodes).bind fun _ _ => (shares_comLoop _ h.nodes _).bind fun _ _ => shares_unit

theorem shares_solveOneLoop (bs : BaseOk R S B) (s : IkSolver T) (h : c.Of R S) (t : Iso T) (ops : List Bool)
    (ig : List Nat) : Sh R S B (fun _ => True) (solveOneLoop s c t ops ig) := by
  refine (Chain.shares_jointPositions h).bind fun _ _ => (Chain.shares_endTransform h.nodes).bind fun _ _ => ?_
  refine (shares_jacobian bs h).bind fun _ _ => shares_ofExcept.bind fun r _ => ?_
  cases r with
  | error e => exact shares_unit
  | ok ps =>
    exact (Chain.shares_setJointPositionsClamped h ps).bind fun _ _ =>
      (Chain.shares_endTransform h.nodes).bind fun _ _ => shares_unit
theorem shares_tryLoop (bs : BaseOk R S B) (s : IkSolver T) (h : c.Of R S) (t : Iso T) (ops : List Bool)
    (ig : List Nat) (orig : List T) (k : Nat) (l : Option (V3 T × V3 T)) :
    Sh R S B (fun _ => True) (tryLoop s c t ops ig orig k l) := by
  induction k generalizing l with
  | zero =>
    unfold tryLoop
    refine (Chain.shares_setJointPositions h orig).bind fun r _ => ?_
    cases r with
    | error e => exact shares_unit
    | ok u => exact shares_expect'.bind fun _ _ => shares_unit
  | succ k ih =>
    unfold tryLoop
    refine (shares_solveOneLoop bs s h t ops ig).bind fun r _ => ?_
    cases r with
    | error e => exact shares_unit
    | ok d =>
      dsimp only
      split
      · exact (Chain.shares_jointPositions h).bind fun ps _ =>
          (Chain.shares_setJointPositionsClamped h ps).bind fun _ _ => shares_unit
      · exact ih _
theorem shares_jointIndex (name : String) (ns : List NodeId) (h : ∀ n ∈ ns, R n) :
    Sh R S B (fun _ => True) (jointIndex name ns) := by
  induction ns with
  | nil => exact shares_unit
  | cons n ns ih =>
    unfold jointIndex
    refine (shares_Node_joint (.inl (h n (by simp)))).bind fun j _ => ?_
    split
    · exact shares_unit
    · exact (ih fun m hm => h m (by simp [hm])).bind fun _ _ => shares_unit
theorem shares_ignoredIndices (h : c.Of R S) (names : List String) :
    Sh R S B (fun _ => True) (ignoredIndices c names) := by
  induction names with
  | nil => exact shares_unit
  | cons n ns ih =>
    refine (shares_jointIndex _ _ h.movable).bind fun o _ => ?_
    cases o with
    | none => exact shares_unit
    | some i =>
      refine ih.bind fun r _ => ?_
      cases r <;> exact shares_unit
theorem shares_solveWithConstraints (bs : BaseOk R S B) (s : IkSolver T) (h : c.Of R S) (t : Iso T)
    (cs : Constraints) : Sh R S B (fun _ => True) (solveWithConstraints s c t cs) := by
  unfold solveWithConstraints
  refine (Chain.shares_jointPositions h).bind fun orig _ => ?_
  refine Shares.bind (Q := fun _ => True) ?_ fun r _ => ?_
  · unfold solveInternal
    refine (Chain.shares_jointPositions h).bind fun _ _ => ?_
    split
    · exact rfl
    · dsimp only
      split
      · exact shares_unit
      · refine (shares_ignoredIndices h _).bind fun r _ => ?_
        cases r with
        | error e => exact shares_unit
        | ok ig => exact shares_tryLoop bs _ h _ _ _ _ _ _
  · cases r with
    | ok u => exact shares_unit
    | error e =>
      refine (Chain.shares_setJointPositions h orig).bind fun r _ => ?_
      cases r <;> exact shares_unit

theorem shares_call (bs : BaseOk R S B) {β : Type} (c : Call T β) (h : c.Uses R S) :
    Sh R S B (c.Shows R S) c.prog := by
  cases c with
  | newNode j => exact h.elim
  | cloneChain fuel c => exact h.elim
  | setParent n p => exact shares_Node_setParent h.1 h.2
  | removeParent n p => exact shares_Node_removeParent h.1 h.2
  | setMimicParent n p m => exact shares_Node_setMimicParent m h.1 h.2
  | setLink n l => exact shares_poke h fun s hs => hs.withLink _
  | setOrigin n t => exact shares_poke h fun s hs => hs.withJoint _
  | setJointPosition n x => exact shares_Node_setJointPosition x h
  | setJointPositionClamped n x => exact shares_poke h fun s hs => hs.withJoint _
  | setJointPositionUnchecked n x => exact shares_poke h fun s hs => hs.withJoint _
  | joint n => exact shares_Node_joint h
  | jointPosition n => exact shares_Node_jointPosition h
  | parent n => exact shares_Node_parent bs h
  | mimicParent n => exact shares_Node_mimicParent bs h
  | children n => exact shares_Node_children bs h
  | link n => exact shares_Node_link h
  | isRoot n => exact shares_Node_isRoot h
  | isEnd n => exact shares_Node_isEnd h
  | origin n => exact shares_Node_origin h
  | worldTransform n => exact shares_Node_worldTransform h
  | worldVelocity n => exact shares_Node_worldVelocity h
  | iterAncestors fuel n => exact shares_ancestors bs fuel _ (fun m e => by cases e; exact h)
  | iterDescendants fuel n => exact shares_descendants bs fuel _ (fun m e => by simp at e; exact e ▸ h)
  | fromNodes ns => exact Chain.shares_fromNodes h
  | fromRoot fuel n => exact Chain.shares_fromRoot bs fuel h
  | fromEnd fuel n => exact Chain.shares_fromEnd bs fuel h
  | fromEndToRoot fuel n r => exact Chain.shares_fromEndToRoot bs fuel r h
  | chainSetOrigin c t => exact Chain.shares_setOrigin h t
  | chainOrigin c => exact Chain.shares_origin h
  | iterJoints c => exact Chain.shares_iterJoints h
  | iterLinks c => exact Chain.shares_iterLinks h
  | find c name => exact Chain.shares_find h name
  | jointPositions c => exact Chain.shares_jointPositions h
  | setJointPositions c xs => exact Chain.shares_setJointPositions h xs
  | setJointPositionsClamped c xs => exact Chain.shares_setJointPositionsClamped h xs
  | setJointPositionsUnchecked c xs => exact Chain.shares_setJointPositionsUnchecked h xs
  | updateTransforms c => exact Chain.shares_updateTransforms bs h.nodes
  | updateVelocities c => exact Chain.shares_updateVelocities bs h
  | updateLinkTransforms c => exact Chain.shares_updateLinkTransforms bs h
  | tryNew c => exact Chain.shares_tryNew bs h
  | endTransform c => exact Chain.shares_endTransform h.nodes
  | display fuel c => exact Chain.shares_display h fuel
  | jacobian c => exact shares_jacobian bs h
  | centerOfMass c => exact shares_centerOfMass bs h
  | solve s c t cs => exact shares_solveWithConstraints bs s h t cs

theorem shares_client (bs : BaseOk R S B) {α : Type} (c : Client T α) (h : c.Works R S) :
    Sh R S B (fun _ => True) c.prog := by
  induction c with
  | done a => exact shares_unit
  | call c k ih => exact (shares_call bs c h.1).bind fun r hr => ih r (h.2 r hr)

end K
