import Verif.Spec.Wind
import Verif.Lemmas.Signed
import Verif.Lemmas.Mirror
import Verif.Props.FlipEx
import Mathlib.Analysis.SpecialFunctions.Trigonometric.Basic
/-!
# Every call of the API does the same after whole turns of joints
-/

set_option linter.unusedSectionVars false

namespace K
open Prog
variable {α β γ δ ε : Type} {W : Winding}

noncomputable section

namespace Wound
variable {h g : KHeap ℝ}

theorem setHeld (r : Wound W h g) (n : NodeId) (b : Bool) : Wound W (h.setHeld n b) (g.setHeld n b) :=
  ⟨r.node, r.next, r.dead, by simp only [Heap.setHeld, r.held], r.new⟩

theorem modify (r : Wound W h g) (n : NodeId) {f f' : NodeImpl ℝ → NodeImpl ℝ}
    (hf : ∀ s s' : NodeImpl ℝ, s.Wound W n s' → (f s).Wound W n (f' s')) :
    Wound W (h.modify n f) (g.modify n f') := by
  refine ⟨fun m => ?_, r.next, r.dead, r.held, r.new⟩
  simp only [Heap.modify]
  by_cases x : m = n
  · subst x; simp only [if_true]; exact hf _ _ (r.node _)
  · simp only [if_neg x]; exact r.node m

theorem push (r : Wound W h g) {s s' : NodeImpl ℝ} (hs : ∀ m, W m = 0 → s.Wound W m s') :
    Wound W (h.push s) (g.push s') := by
  refine ⟨fun m => ?_, ?_, ?_, ?_, fun n hn => r.new n (Nat.le_of_succ_le hn)⟩
  · simp only [Heap.push, r.next]
    by_cases x : m = h.next
    · simp only [if_pos x]; exact hs m (r.new m (le_of_eq x.symm))
    · simp only [if_neg x]; exact r.node m
  · simp only [Heap.push, r.next]
  · simp only [Heap.push, r.dead, r.next]
  · simp only [Heap.push, r.held, r.next]

theorem free (r : Wound W h g) (F : NodeId → Bool) : Wound W (h.free F) (g.free F) :=
  ⟨r.node, r.next, by simp only [Heap.free, r.dead], r.held, r.new⟩

end Wound

/-- `q` does after the turns what `p` does -/
inductive Winds (W : Winding) (Q : α → β → Prop) : KProg ℝ α → KProg ℝ β → Prop
  | ret {a b} (q : Q a b) : Winds W Q (.ret a) (.ret b)
  | lock {n k k'} (x : Winds W Q k k') : Winds W Q (.lock n k) (.lock n k')
  | unlock {n k k'} (x : Winds W Q k k') : Winds W Q (.unlock n k) (.unlock n k')
  | read {n k k'} (x : ∀ s s', NodeImpl.Wound W n s s' → Winds W Q (k s) (k' s')) : Winds W Q (.read n k) (.read n k')
  | write {n f f' k k'} (hf : ∀ s s' : NodeImpl ℝ, s.Wound W n s' → (f s).Wound W n (f' s'))
      (x : Winds W Q k k') : Winds W Q (.write n f k) (.write n f' k')
  | upgrade {n k k'} (x : ∀ b, Winds W Q (k b) (k' b)) : Winds W Q (.upgrade n k) (.upgrade n k')
  | alloc {s s' k k'} (hs : ∀ m, W m = 0 → NodeImpl.Wound W m s s') (x : ∀ m, W m = 0 → Winds W Q (k m) (k' m)) :
      Winds W Q (.alloc s k) (.alloc s' k')
  | panic (m : String) : Winds W Q (.panic m) (.panic m)
  | diverge : Winds W Q .diverge .diverge

/-- outcomes that are the same up to turns -/
def WoundOutcome (W : Winding) (Q : α → β → Prop) : Res (NodeImpl ℝ) α → Res (NodeImpl ℝ) β → Prop
  | .ok a h, .ok b g => Q a b ∧ Wound W h g
  | .panic m h, .panic m' g => m' = m ∧ Wound W h g
  | .blocked n h, .blocked n' g => n' = n ∧ Wound W h g
  | .diverged, .diverged => True
  | _, _ => False

namespace Winds
variable {Q : α → β → Prop} {R : γ → δ → Prop}

theorem outcome {p : KProg ℝ α} {q : KProg ℝ β} (s : Winds W Q p q) {h g : KHeap ℝ} (r : Wound W h g) :
    WoundOutcome W Q (run p h) (run q g) := by
  induction s generalizing h g with
  | ret q => exact ⟨q, r⟩
  | @lock n k k' _ ih =>
    simp only [K.run, r.held]
    split
    · exact ⟨rfl, r⟩
    · exact ih (r.setHeld n true)
  | unlock _ ih => exact ih (r.setHeld _ false)
  | read _ ih => exact ih _ _ (r.node _) r
  | write hf _ ih => exact ih (r.modify _ hf)
  | upgrade _ ih => simp only [K.run, r.dead]; exact ih _ r
  | alloc hs _ ih => simp only [K.run, r.next]; exact ih _ (r.new _ le_rfl) (r.push hs)
  | panic m => exact ⟨rfl, r⟩
  | diverge => trivial

theorem step {p p' : KProg ℝ α} {q : KProg ℝ β} (s : Winds W Q p q) {h g h' : KHeap ℝ} (r : Wound W h g)
    (e : step1 p h = some (p', h')) :
    ∃ q' g', step1 q g = some (q', g') ∧ Wound W h' g' ∧ Winds W Q p' q' := by
  cases s with
  | ret q => cases e
  | @lock n k k' x =>
    simp only [step1] at e ⊢
    rw [r.held]
    split at e
    · cases e
    · cases e; rename_i y
      rw [if_neg y]
      exact ⟨_, _, rfl, r.setHeld _ _, x⟩
  | unlock x => cases e; exact ⟨_, _, rfl, r.setHeld _ _, x⟩
  | read x => cases e; exact ⟨_, _, rfl, r, x _ _ (r.node _)⟩
  | write hf x => cases e; exact ⟨_, _, rfl, r.modify _ hf, x⟩
  | upgrade x => cases e; exact ⟨_, _, rfl, r, by rw [r.dead]; exact x _⟩
  | alloc hs x => cases e; exact ⟨_, _, rfl, r.push hs, by rw [r.next]; exact x _ (r.new _ le_rfl)⟩
  | panic m => cases e
  | diverge => cases e; exact ⟨_, _, rfl, r, .diverge⟩

theorem back {p : KProg ℝ α} {q q' : KProg ℝ β} (s : Winds W Q p q) {h g g' : KHeap ℝ} (r : Wound W h g)
    (e : step1 q g = some (q', g')) :
    ∃ p' h', step1 p h = some (p', h') ∧ Wound W h' g' ∧ Winds W Q p' q' := by
  cases s with
  | ret q => cases e
  | @lock n k k' x =>
    simp only [step1] at e ⊢
    rw [r.held] at e
    split at e
    · cases e
    · cases e; rename_i y
      rw [if_neg y]
      exact ⟨_, _, rfl, r.setHeld _ _, x⟩
  | unlock x => cases e; exact ⟨_, _, rfl, r.setHeld _ _, x⟩
  | read x => cases e; exact ⟨_, _, rfl, r, x _ _ (r.node _)⟩
  | write hf x => cases e; exact ⟨_, _, rfl, r.modify _ hf, x⟩
  | upgrade x => cases e; exact ⟨_, _, rfl, r, by rw [r.dead]; exact x _⟩
  | alloc hs x => cases e; exact ⟨_, _, rfl, r.push hs, by rw [r.next]; exact x _ (r.new _ le_rfl)⟩
  | panic m => cases e
  | diverge => cases e; exact ⟨_, _, rfl, r, .diverge⟩

theorem bind {p : KProg ℝ α} {q : KProg ℝ β} (s : Winds W Q p q) {f : α → KProg ℝ γ} {g : β → KProg ℝ δ}
    (hf : ∀ a b, Q a b → Winds W R (f a) (g b)) : Winds W R (p >>= f) (q >>= g) := by
  show Winds W R (p.bind f) (q.bind g)
  induction s with
  | ret q => exact hf _ _ q
  | lock _ ih => exact .lock ih
  | unlock _ ih => exact .unlock ih
  | read _ ih => exact .read fun s s' r => ih s s' r
  | write h _ ih => exact .write h ih
  | upgrade _ ih => exact .upgrade fun b => ih b
  | alloc h _ ih => exact .alloc h fun m hm => ih m hm
  | panic m => exact .panic m
  | diverge => exact .diverge

/-- the same value -/
abbrev Id : α → α → Prop := fun a b => b = a

/-- sequencing after the same value -/
theorem seq {p q : KProg ℝ α} (s : Winds W Id p q) {f : α → KProg ℝ γ} {g : α → KProg ℝ δ}
    (hf : ∀ a, Winds W R (f a) (g a)) : Winds W R (p >>= f) (q >>= g) :=
  s.bind fun a b e => by subst e; exact hf _

theorem doLock (n : NodeId) : Winds W Id (doLock n : KProg ℝ Unit) (doLock n) := .lock (.ret rfl)
theorem doUnlock (n : NodeId) : Winds W Id (doUnlock n : KProg ℝ Unit) (doUnlock n) := .unlock (.ret rfl)
theorem doUpgrade (n : NodeId) : Winds W Id (doUpgrade n : KProg ℝ Bool) (doUpgrade n) := .upgrade fun _ => .ret rfl
theorem doRead (n : NodeId) : Winds W (NodeImpl.Wound W n) (doRead n : KProg ℝ _) (doRead n) :=
  .read fun _ _ r => .ret r
theorem doWrite {n : NodeId} {f f' : NodeImpl ℝ → NodeImpl ℝ}
    (hf : ∀ s s' : NodeImpl ℝ, s.Wound W n s' → (f s).Wound W n (f' s')) :
    Winds W Id (doWrite n f) (doWrite n f') := .write hf (.ret rfl)
theorem peek (n : NodeId) : Winds W (NodeImpl.Wound W n) (peek n : KProg ℝ _) (peek n) :=
  .lock (.read fun _ _ r => .unlock (.ret r))
theorem poke {n : NodeId} {f f' : NodeImpl ℝ → NodeImpl ℝ}
    (hf : ∀ s s' : NodeImpl ℝ, s.Wound W n s' → (f s).Wound W n (f' s')) :
    Winds W Id (poke n f) (poke n f') := .lock (.write hf (.unlock (.ret rfl)))
theorem expect {R : α → α → Prop} {o o' : Option α} (r : BothOrNone R o o') (m : String) :
    Winds W R (expect o m : KProg ℝ α) (expect o' m) := by
  cases o <;> cases o' <;> first | exact r.elim | exact .panic m | exact .ret r
theorem expectSame (o : Option α) (m : String) : Winds W Id (Prog.expect o m : KProg ℝ α) (Prog.expect o m) := by
  cases o with
  | none => exact .panic m
  | some a => exact .ret rfl
theorem ofExcept (x : Except String α) : Winds W Id (ofExcept x : KProg ℝ α) (ofExcept x) := by
  cases x with
  | error m => exact .panic m
  | ok a => exact .ret rfl

theorem forEach {ι : Type} {f : γ → KProg ℝ Unit} {g : ι → KProg ℝ Unit} {m : γ → ι}
    (h : ∀ x, Winds W Id (f x) (g (m x))) (xs : List γ) :
    Winds W Id (forEach xs f) (forEach (xs.map m) g) := by
  induction xs with
  | nil => exact .ret rfl
  | cons x xs ih => exact (h x).bind fun _ _ _ => ih

theorem forEachSame {f g : γ → KProg ℝ Unit} (h : ∀ x, Winds W Id (f x) (g x)) (xs : List γ) :
    Winds W Id (Prog.forEach xs f) (Prog.forEach xs g) := by
  induction xs with
  | nil => exact .ret rfl
  | cons x xs ih => exact (h x).bind fun _ _ _ => ih

theorem along {R : NodeId → α → α → Prop} {f g : NodeId → KProg ℝ α} (h : ∀ n, Winds W (R n) (f n) (g n))
    (ns : List NodeId) : Winds W (AlongNodes R ns) (Prog.mapList ns f) (Prog.mapList ns g) := by
  induction ns with
  | nil => exact .ret trivial
  | cons x xs ih => exact (h x).bind fun a b q => ih.bind fun as bs qs => .ret ⟨q, qs⟩

theorem mapListTo {R : α → α → Prop} {f g : γ → KProg ℝ α} (h : ∀ x, Winds W R (f x) (g x)) (xs : List γ) :
    Winds W (OneByOne R) (Prog.mapList xs f) (Prog.mapList xs g) := by
  induction xs with
  | nil => exact .ret trivial
  | cons x xs ih => exact (h x).bind fun a b q => ih.bind fun as bs qs => .ret ⟨q, qs⟩

theorem mapList {f g : γ → KProg ℝ α}
    (h : ∀ x, Winds W Id (f x) (g x)) (xs : List γ) : Winds W Id (Prog.mapList xs f) (Prog.mapList xs g) := by
  induction xs with
  | nil => exact .ret rfl
  | cons x xs ih => exact (h x).seq fun a => ih.seq fun as => .ret rfl

theorem filterList {f g : γ → KProg ℝ Bool}
    (h : ∀ x, Winds W Id (f x) (g x)) (xs : List γ) : Winds W Id (filterList xs f) (filterList xs g) := by
  induction xs with
  | nil => exact .ret rfl
  | cons x xs ih => exact (h x).seq fun a => ih.seq fun as => .ret rfl

theorem findFirst {f g : γ → KProg ℝ Bool}
    (h : ∀ x, Winds W Id (f x) (g x)) (xs : List γ) : Winds W Id (findFirst xs f) (findFirst xs g) := by
  induction xs with
  | nil => exact .ret rfl
  | cons x xs ih =>
    refine (h x).seq fun a => ?_
    cases a
    · exact ih
    · exact .ret rfl

theorem tryEach {ι : Type} {f : γ → KProg ℝ (Except (KError ℝ) Unit)} {g : ι → KProg ℝ (Except (KError ℝ) Unit)}
    {h : γ → ι} {xs : List γ} (hx : ∀ x ∈ xs, Winds W Id (f x) (g (h x))) :
    Winds W Id (tryEach xs f) (tryEach (xs.map h) g) := by
  induction xs with
  | nil => exact .ret rfl
  | cons x xs ih =>
    refine (hx x (by simp)).seq fun a => ?_
    cases a with
    | error e => exact .ret rfl
    | ok u => exact ih fun y hy => hx y (List.mem_cons_of_mem _ hy)

/-! ### nodes -/

theorem new {j j' : Joint ℝ} (r : j.Wound 0 j') : Winds W Id (Node.new j) (Node.new j') :=
  .alloc (fun m hm => ⟨_, _, rfl, by rw [hm]; exact r, trivial, fun c hc => by cases hc⟩) fun _ _ => .ret rfl
theorem joint (n : NodeId) : Winds W (Joint.Wound (W n)) (Node.joint n : KProg ℝ _) (Node.joint n) :=
  (peek n).bind fun s s' r => .ret (by obtain ⟨j, l, rfl, hj, -⟩ := r; exact hj)
theorem position_joint {n : NodeId} {j j' : Joint ℝ} (r : j.Wound (W n) j') :
    j'.jointPosition = j.jointPosition.map (W.coord n) := by
  obtain ⟨o, w, rfl, -⟩ := r
  rcases j with ⟨nm, jt, po, v, lim, o', c1, c2⟩
  cases jt <;> rfl
theorem jointPosition (n : NodeId) :
    Winds W (fun x x' => x' = x.map (W.coord n)) (Node.jointPosition n : KProg ℝ _) (Node.jointPosition n) :=
  (peek n).bind fun s s' r => .ret (by obtain ⟨j, l, rfl, hj, -⟩ := r; exact position_joint hj)
theorem children (n : NodeId) : Winds W Id (Node.children n : KProg ℝ _) (Node.children n) :=
  (peek n).bind fun s s' r => .ret (by obtain ⟨j, l, rfl, -⟩ := r; rfl)
theorem link (n : NodeId) : Winds W (BothOrNone Link.EitherSign) (Node.link n : KProg ℝ _) (Node.link n) :=
  (peek n).bind fun s s' r => .ret (by obtain ⟨j, l, rfl, -, hl, -⟩ := r; exact hl)
theorem isRoot (n : NodeId) : Winds W Id (Node.isRoot n : KProg ℝ _) (Node.isRoot n) :=
  (peek n).bind fun s s' r => .ret (by obtain ⟨j, l, rfl, -⟩ := r; rfl)
theorem isEnd (n : NodeId) : Winds W Id (Node.isEnd n : KProg ℝ _) (Node.isEnd n) :=
  (peek n).bind fun s s' r => .ret (by obtain ⟨j, l, rfl, -⟩ := r; rfl)
theorem origin (n : NodeId) : Winds W Iso.EitherSign (Node.origin n : KProg ℝ _) (Node.origin n) :=
  (joint n).bind fun j j' r => .ret (by obtain ⟨o, w, rfl, ho, -⟩ := r; exact ho)
theorem worldTransform (n : NodeId) :
    Winds W (BothOrNone Iso.EitherSign) (Node.worldTransform n : KProg ℝ _) (Node.worldTransform n) :=
  (joint n).bind fun j j' r => .ret (by obtain ⟨o, w, rfl, -, hw, -⟩ := r; exact hw)
theorem worldVelocity (n : NodeId) : Winds W Id (Node.worldVelocity n : KProg ℝ _) (Node.worldVelocity n) :=
  (joint n).bind fun j j' r => .ret (by obtain ⟨o, w, rfl, -⟩ := r; rfl)

theorem parent (n : NodeId) : Winds W Id (Node.parent n : KProg ℝ _) (Node.parent n) := by
  refine (doLock n).seq fun _ => (doRead n).bind fun s s' r => ?_
  obtain ⟨j, l, rfl, -⟩ := r
  dsimp only
  cases s.parent with
  | none => exact (doUnlock n).seq fun _ => .ret rfl
  | some w => exact (doUpgrade w).seq fun b => (doUnlock n).seq fun _ => .ret rfl

theorem mimicParent (n : NodeId) : Winds W Id (Node.mimicParent n : KProg ℝ _) (Node.mimicParent n) := by
  refine (doLock n).seq fun _ => (doRead n).bind fun s s' r => ?_
  obtain ⟨j, l, rfl, -⟩ := r
  dsimp only
  cases s.mimicParent with
  | none => exact (doUnlock n).seq fun _ => .ret rfl
  | some w => exact (doUpgrade w).seq fun b => (doUnlock n).seq fun _ => .ret rfl

theorem setParent (n p : NodeId) : Winds W Id (Node.setParent n p : KProg ℝ _) (Node.setParent n p) := by
  refine seq (poke ?_) fun _ => poke ?_
  all_goals rintro s _ ⟨j, l, rfl, a, b, m⟩; exact ⟨_, _, rfl, a, b, m⟩
theorem removeParent (n p : NodeId) : Winds W Id (Node.removeParent n p : KProg ℝ _) (Node.removeParent n p) := by
  refine seq (poke ?_) fun _ => poke ?_
  all_goals rintro s _ ⟨j, l, rfl, a, b, m⟩; exact ⟨_, _, rfl, a, b, m⟩
theorem setMimicParent (n p : NodeId) (m : Mimic ℝ) (hn : W n = 0) (hp : W p = 0) :
    Winds W Id (Node.setMimicParent n p m) (Node.setMimicParent n p m) := by
  refine seq (poke ?_) fun _ => seq (poke ?_) fun _ => poke ?_
  · rintro s _ ⟨j, l, rfl, a, b, m⟩; exact ⟨_, _, rfl, a, b, m⟩
  · rintro s _ ⟨j, l, rfl, a, b, m⟩
    refine ⟨_, _, rfl, a, b, fun c hc => ?_⟩
    rcases List.mem_append.1 hc with x | x
    · exact m c x
    · cases List.mem_singleton.1 x; exact ⟨hp, hn⟩
  · rintro s _ ⟨j, l, rfl, a, b, m⟩; exact ⟨_, _, rfl, a, b, m⟩
theorem setLink (n : NodeId) {l l' : Option (Link ℝ)} (r : BothOrNone Link.EitherSign l l') :
    Winds W Id (Node.setLink n l) (Node.setLink n l') :=
  poke fun s s' x => by obtain ⟨j, l, rfl, a, -, m⟩ := x; exact ⟨_, _, rfl, a, r, m⟩

/-- an update of a joint -/
theorem jointOnly {n : NodeId} {f f' : Joint ℝ → Joint ℝ}
    (hf : ∀ j j' : Joint ℝ, j.Wound (W n) j' → (f j).Wound (W n) (f' j'))
    (s s' : NodeImpl ℝ) (r : s.Wound W n s') :
    ({ s with joint := f s.joint } : NodeImpl ℝ).Wound W n { s' with joint := f' s'.joint } := by
  obtain ⟨j, l, rfl, a, b, m⟩ := r
  exact ⟨_, _, rfl, hf _ _ a, b, m⟩

theorem setOrigin_joint {k : Int} {t t' : Iso ℝ} (r : t.EitherSign t') {j j' : Joint ℝ} (s : j.Wound k j') :
    (j.setOrigin t).Wound k (j'.setOrigin t') := by
  obtain ⟨o, w, rfl, -, -, hc⟩ := s
  exact ⟨_, _, rfl, r, trivial, hc⟩
theorem unchecked_joint (n : NodeId) (x : ℝ) {j j' : Joint ℝ} (s : j.Wound (W n) j') :
    (j.setJointPositionUnchecked x).Wound (W n) (j'.setJointPositionUnchecked (W.coord n x)) := by
  obtain ⟨o, w, rfl, ho, -, hc⟩ := s
  exact ⟨_, _, rfl, ho, trivial, hc⟩
theorem coord_zero {n : NodeId} (h : W n = 0) (x : ℝ) : W.coord n x = x := by simp [Winding.coord, h]
theorem clamped_joint (n : NodeId) (x : ℝ) {j j' : Joint ℝ} (s : j.Wound (W n) j') :
    (j.setJointPositionClamped x).Wound (W n) (j'.setJointPositionClamped (W.coord n x)) := by
  by_cases h : W n = 0
  · rw [coord_zero h]
    obtain ⟨o, w, rfl, ho, hw, hc⟩ := s
    have z : ∀ y : ℝ, y = y + (W n : ℝ) * (2 * Real.pi) := fun y => by simp [h]
    rcases j with ⟨nm, jt, po, v, lim, o', c1, c2⟩
    cases jt
    · exact ⟨_, _, rfl, ho, hw, hc⟩
    all_goals
      simp only [Joint.setJointPositionClamped, Joint.isMovable, Joint.setJointPositionUnchecked]
      exact ⟨o, none, by simp [h], ho, trivial, fun x => absurd h x⟩
  · have e1 : ∀ j : Joint ℝ, j.Continuous → ∀ y, j.setJointPositionClamped y = j.setJointPositionUnchecked y := by
      rintro j ⟨⟨a, ea⟩, el⟩ y
      simp [Joint.setJointPositionClamped, Joint.isMovable, ea, el]
    have u := unchecked_joint n x s
    obtain ⟨o, w, rfl, ho, hw, hc⟩ := s
    rw [e1 j (hc h)]
    exact (e1 { j with position := j.position + (W n : ℝ) * (2 * Real.pi), origin := o, worldTransformCache := w }
      (hc h) (W.coord n x)).symm ▸ u
theorem checked_joint (n : NodeId) (x : ℝ) {j j' : Joint ℝ} (s : j.Wound (W n) j') :
    (j.setJointPosition x).1.Wound (W n) (j'.setJointPosition (W.coord n x)).1 ∧
      (j'.setJointPosition (W.coord n x)).2 = (j.setJointPosition x).2 := by
  obtain ⟨o, w, rfl, ho, hw, hc⟩ := s
  by_cases h : W n = 0
  · rw [coord_zero h]
    rcases j with ⟨nm, jt, po, v, lim, o', c1, c2⟩
    have e0 : ∀ y : ℝ, y + (W n : ℝ) * (2 * Real.pi) = y := fun y => by simp [h]
    have nc : ∀ j : Joint ℝ, W n ≠ 0 → j.Continuous := fun _ x => absurd h x
    cases lim with
    | none =>
      cases jt <;> simp only [Joint.setJointPosition, Joint.isMovable]
      · exact ⟨⟨o, w, rfl, ho, hw, nc _⟩, rfl⟩
      · exact ⟨⟨o, none, by simp [e0], ho, trivial, nc _⟩, rfl⟩
      · exact ⟨⟨o, none, by simp [e0], ho, trivial, nc _⟩, rfl⟩
    | some r =>
      cases e : r.isValid x <;> cases jt <;> simp only [Joint.setJointPosition, Joint.isMovable, e] <;>
        first | exact ⟨⟨o, w, rfl, ho, hw, nc _⟩, rfl⟩ | exact ⟨⟨o, none, by simp [e0], ho, trivial, nc _⟩, rfl⟩
  · obtain ⟨⟨a, ea⟩, el⟩ := hc h
    simp only [Joint.setJointPosition, Joint.isMovable, ea, el, Bool.not_true, Bool.false_eq_true, if_false]
    exact ⟨⟨_, _, rfl, ho, trivial, fun _ => ⟨⟨a, rfl⟩, rfl⟩⟩, trivial⟩

theorem setOrigin (n : NodeId) {t t' : Iso ℝ} (r : t.EitherSign t') :
    Winds W Id (Node.setOrigin n t) (Node.setOrigin n t') := poke (jointOnly fun _ _ => setOrigin_joint r)
theorem setJointPositionClamped (n : NodeId) (x : ℝ) :
    Winds W Id (Node.setJointPositionClamped n x) (Node.setJointPositionClamped n (W.coord n x)) :=
  poke (jointOnly fun _ _ => clamped_joint n x)
theorem setJointPositionUnchecked (n : NodeId) (x : ℝ) :
    Winds W Id (Node.setJointPositionUnchecked n x) (Node.setJointPositionUnchecked n (W.coord n x)) :=
  poke (jointOnly fun _ _ => unchecked_joint n x)

theorem setMimicChild (n : NodeId) (x : ℝ) (c : NodeId) (h : W c = 0) :
    Winds W Id (Node.setMimicChild n x c) (Node.setMimicChild n x c) := by
  refine (doLock c).seq fun _ => (doRead c).bind fun s s' r => ?_
  obtain ⟨j, l, rfl, hj, -⟩ := r
  dsimp only
  cases s.mimic with
  | none =>
    refine (joint n).bind fun j1 j1' r1 => (joint c).bind fun j2 j2' r2 => (doUnlock c).seq fun _ => .ret ?_
    obtain ⟨_, _, rfl, -⟩ := r1
    obtain ⟨_, _, rfl, -⟩ := r2
    rfl
  | some m =>
    have e := fun (j j' : Joint ℝ) (r : j.Wound (W c) j') => checked_joint c (m.mimicPosition x) r
    rw [coord_zero h] at e
    refine seq (doWrite ?_) fun _ => (doUnlock c).seq fun _ => .ret (e _ _ hj).2
    exact jointOnly (f := fun j => (j.setJointPosition _).1) (f' := fun j => (j.setJointPosition _).1)
      fun _ _ r => (e _ _ r).1

theorem setJointPosition (n : NodeId) (x : ℝ) :
    Winds W Id (Node.setJointPosition n x) (Node.setJointPosition n (W.coord n x)) := by
  refine (doLock n).seq fun _ => (doRead n).bind fun s s' r => ?_
  obtain ⟨j, l, rfl, hj, -, hm⟩ := r
  dsimp only
  split
  · exact (doUnlock n).seq fun _ => .ret rfl
  · refine seq (doWrite ?_) fun _ => ?_
    · exact jointOnly (f := fun j => (j.setJointPosition _).1) (f' := fun j => (j.setJointPosition _).1)
        fun _ _ r => (checked_joint n x r).1
    · rw [(checked_joint n x hj).2]
      cases (s.joint.setJointPosition x).2 with
      | error e => exact (doUnlock n).seq fun _ => .ret rfl
      | ok =>
        refine seq ?_ fun r => (doUnlock n).seq fun _ => .ret rfl
        have := tryEach (W := W) (f := Node.setMimicChild n x) (g := Node.setMimicChild n (W.coord n x)) (h := id)
          (xs := s.mimicChildren) fun c hc => by
            rw [coord_zero (hm c hc).1]; exact setMimicChild n x c (hm c hc).2
        rwa [List.map_id] at this

theorem parentWorldTransform (n : NodeId) :
    Winds W (BothOrNone Iso.EitherSign) (Node.parentWorldTransform n : KProg ℝ _) (Node.parentWorldTransform n) :=
  (parent n).seq fun o => by
    cases o with
    | none => exact .ret (BothOrNone.refl (fun _ => .inl rfl) _)
    | some p => exact worldTransform p
theorem parentWorldVelocity (n : NodeId) :
    Winds W Id (Node.parentWorldVelocity n : KProg ℝ _) (Node.parentWorldVelocity n) :=
  (parent n).seq fun o => by
    cases o with
    | none => exact .ret rfl
    | some p => exact worldVelocity p

/-! ### iterators -/

theorem ancestors (fuel : Nat) (o : Option NodeId) : Winds W Id (ancestors fuel o : KProg ℝ _) (ancestors fuel o) := by
  induction fuel generalizing o with
  | zero =>
    cases o with
    | none => exact .ret rfl
    | some n => exact .diverge
  | succ fuel ih =>
    cases o with
    | none => exact .ret rfl
    | some n => exact (parent n).seq fun p => (ih p).seq fun _ => .ret rfl

theorem ancestorsUntil (stop : NodeId) (fuel : Nat) (o : Option NodeId) :
    Winds W Id (ancestorsUntil stop fuel o : KProg ℝ _) (ancestorsUntil stop fuel o) := by
  induction fuel generalizing o with
  | zero =>
    cases o with
    | none => exact .ret rfl
    | some n => exact .diverge
  | succ fuel ih =>
    cases o with
    | none => exact .ret rfl
    | some n =>
      refine (parent n).seq fun p => ?_
      split
      · exact .ret rfl
      · exact (ih p).seq fun _ => .ret rfl

theorem descendants (fuel : Nat) (st : List NodeId) :
    Winds W Id (descendants fuel st : KProg ℝ _) (descendants fuel st) := by
  induction fuel generalizing st with
  | zero =>
    cases st with
    | nil => exact .ret rfl
    | cons n st => exact .diverge
  | succ fuel ih =>
    cases st with
    | nil => exact .ret rfl
    | cons n st => exact (children n).seq fun cs => (ih _).seq fun _ => .ret rfl

/-! ### chains -/

theorem fromNodes (ns : List NodeId) : Winds W Id (Chain.fromNodes ns : KProg ℝ _) (Chain.fromNodes ns) := by
  refine seq (filterList (fun n => ?_) ns) fun _ => .ret rfl
  exact (joint n).bind fun _ _ r => .ret (by obtain ⟨_, _, rfl, -⟩ := r; rfl)
theorem fromRoot (fuel : Nat) (n : NodeId) : Winds W Id (Chain.fromRoot fuel n : KProg ℝ _) (Chain.fromRoot fuel n) :=
  (descendants fuel [n]).seq fun ns => fromNodes ns
theorem fromEnd (fuel : Nat) (n : NodeId) : Winds W Id (Chain.fromEnd fuel n : KProg ℝ _) (Chain.fromEnd fuel n) :=
  (ancestors fuel (some n)).seq fun _ => fromNodes _
theorem fromEndToRoot (fuel : Nat) (e r : NodeId) :
    Winds W Id (Chain.fromEndToRoot fuel e r : KProg ℝ _) (Chain.fromEndToRoot fuel e r) :=
  (ancestorsUntil r fuel (some e)).seq fun _ => fromNodes _

variable (c : Chain)

theorem chainSetOrigin {t t' : Iso ℝ} (r : t.EitherSign t') : Winds W Id (c.setOrigin t) (c.setOrigin t') := by
  rcases c with ⟨ns, ms, d⟩
  cases ns with
  | nil => exact .panic _
  | cons n ns => exact setOrigin n r
theorem chainOrigin : Winds W Iso.EitherSign (c.origin : KProg ℝ _) c.origin := by
  rcases c with ⟨ns, ms, d⟩
  cases ns with
  | nil => exact .panic _
  | cons n ns => exact origin n
theorem iterJoints : Winds W (AlongNodes (fun n => Joint.Wound (W n)) c.movableNodes) (c.iterJoints : KProg ℝ _) c.iterJoints :=
  along joint c.movableNodes

theorem iterLinks : Winds W (OneByOne Link.EitherSign) (c.iterLinks : KProg ℝ _) c.iterLinks := by
  refine bind (mapListTo (R := BothOrNone Link.EitherSign) (fun n => ?_) c.nodes) fun ls ls' r => .ret r.present
  refine (link n).bind fun l l' r => ?_
  cases l <;> cases l'
  · exact .ret trivial
  · exact r.elim
  · exact r.elim
  · refine (doLock n).seq fun _ => (doRead n).bind fun s s' r => ?_
    obtain ⟨j, l, rfl, -, hl, -⟩ := r
    exact bind (expect hl _) fun a a' x => (doUnlock n).seq fun _ => .ret x

theorem find (name : String) : Winds W Id (c.find name : KProg ℝ _) (c.find name) := by
  refine findFirst (fun n => ?_) c.nodes
  exact (joint n).bind fun _ _ r => .ret (by obtain ⟨_, _, rfl, -⟩ := r; rfl)

theorem AlongNodes.coords {ns : List NodeId} {xs xs' : List ℝ} (r : AlongNodes (fun n x x' => x' = W.coord n x) ns xs xs') :
    xs' = W.list ns xs := by
  induction ns generalizing xs xs' with
  | nil => cases xs <;> cases xs' <;> first | rfl | exact r.elim
  | cons n ns ih =>
    cases xs <;> cases xs'
    · exact r.elim
    · exact r.elim
    · exact r.elim
    · rw [r.1, ih r.2]; rfl

theorem jointPositions : Winds W (fun xs xs' => xs' = W.coords c xs) (c.jointPositions : KProg ℝ _) c.jointPositions := by
  have : Winds W (AlongNodes (fun n x x' => x' = W.coord n x) c.movableNodes) (c.jointPositions : KProg ℝ _)
      c.jointPositions := by
    refine along (fun n => ?_) c.movableNodes
    refine (doLock n).seq fun _ => (doRead n).bind fun s s' r => ?_
    obtain ⟨j, l, rfl, hj, -⟩ := r
    dsimp only
    rw [position_joint hj]
    cases s.joint.jointPosition with
    | none => exact .panic _
    | some x => exact (doUnlock n).seq fun _ => .ret rfl
  have := this.bind (f := fun xs => .ret xs) (g := fun xs => .ret xs) (R := fun xs xs' => xs' = W.coords c xs)
    fun xs xs' r => .ret (AlongNodes.coords r)
  have e : (c.jointPositions >>= fun xs => Prog.ret xs : KProg ℝ _) = c.jointPositions := K.bind_ret' _
  rwa [e] at this

theorem zip_coords (ns : List NodeId) (xs : List ℝ) :
    ns.zip (W.list ns xs) = (ns.zip xs).map fun p => (p.1, W.coord p.1 p.2) := by
  induction ns generalizing xs with
  | nil => rfl
  | cons n ns ih =>
    cases xs with
    | nil => rfl
    | cons x xs => simp [Winding.list, ih]

theorem length_coords (ns : List NodeId) (xs : List ℝ) : (W.list ns xs).length = xs.length := by
  induction ns generalizing xs with
  | nil => cases xs <;> rfl
  | cons n ns ih =>
    cases xs with
    | nil => rfl
    | cons x xs => simp [Winding.list, ih]

theorem setJointPositions (xs : List ℝ) : Winds W Id (c.setJointPositions xs) (c.setJointPositions (W.coords c xs)) := by
  unfold Chain.setJointPositions
  simp only [Winding.coords, length_coords, zip_coords]
  split
  · exact .ret rfl
  · exact tryEach fun p _ => setJointPosition p.1 p.2
theorem setJointPositionsClamped (xs : List ℝ) :
    Winds W Id (c.setJointPositionsClamped xs) (c.setJointPositionsClamped (W.coords c xs)) := by
  unfold Chain.setJointPositionsClamped
  simp only [Winding.coords, zip_coords]
  exact forEach (fun p : NodeId × ℝ => setJointPositionClamped p.1 p.2) _
theorem setJointPositionsUnchecked (xs : List ℝ) :
    Winds W Id (c.setJointPositionsUnchecked xs) (c.setJointPositionsUnchecked (W.coords c xs)) := by
  unfold Chain.setJointPositionsUnchecked
  simp only [Winding.coords, zip_coords]
  exact forEach (fun p : NodeId × ℝ => setJointPositionUnchecked p.1 p.2) _

/-- the same nodes, that are not turned -/
abbrev Still (W : Winding) : NodeId → NodeId → Prop := fun m m' => m' = m ∧ W m = 0

theorem newStill {j j' : Joint ℝ} (r : j.Wound 0 j') : Winds W (Still W) (Node.new j) (Node.new j') :=
  .alloc (fun m hm => ⟨_, _, rfl, by rw [hm]; exact r, trivial, fun c hc => by cases hc⟩) fun _ hm => .ret ⟨rfl, hm⟩

theorem mapStill {f g : NodeId → KProg ℝ NodeId} {ns : List NodeId}
    (h : ∀ n ∈ ns, Winds W (Still W) (f n) (g n)) :
    Winds W (fun ms ms' => ms' = ms ∧ ∀ m ∈ ms, W m = 0) (Prog.mapList ns f) (Prog.mapList ns g) := by
  induction ns with
  | nil => exact .ret ⟨rfl, fun m hm => by cases hm⟩
  | cons x xs ih =>
    refine (h x (by simp)).bind fun a b q => (ih fun n hn => h n (List.mem_cons_of_mem _ hn)).bind fun as bs qs => .ret ?_
    obtain ⟨rfl, q⟩ := q
    obtain ⟨rfl, qs⟩ := qs
    exact ⟨rfl, fun m hm => by rcases List.mem_cons.1 hm with rfl | y; exacts [q, qs m y]⟩

theorem forEachMem {f g : γ → KProg ℝ Unit} {xs : List γ} (h : ∀ x ∈ xs, Winds W Id (f x) (g x)) :
    Winds W Id (Prog.forEach xs f) (Prog.forEach xs g) := by
  induction xs with
  | nil => exact .ret rfl
  | cons x xs ih => exact (h x (by simp)).bind fun _ _ _ => ih fun y hy => h y (List.mem_cons_of_mem _ hy)

theorem expectWhere {P : α → Prop} {o : Option α} (h : ∀ a, o = some a → P a) (m : String) :
    Winds W (fun a a' => a' = a ∧ P a) (Prog.expect o m : KProg ℝ α) (Prog.expect o m) := by
  cases o with
  | none => exact .panic m
  | some a => exact .ret ⟨rfl, h a rfl⟩

theorem cloneNode (n : NodeId) (h : W n = 0) : Winds W (Still W) (Chain.cloneNode n : KProg ℝ _) (Chain.cloneNode n) := by
  refine (doLock n).seq fun _ => (doRead n).bind fun s s' r => ?_
  obtain ⟨j, l, rfl, hj, -⟩ := r
  rw [h] at hj
  refine (newStill hj).bind fun m m' e => (doUnlock n).seq fun _ => (doLock n).seq fun _ =>
    (doRead n).bind fun s s' r => ?_
  obtain ⟨rfl, hm⟩ := e
  obtain ⟨j, l, rfl, -, hl, -⟩ := r
  exact (setLink m' hl).seq fun _ => (doUnlock n).seq fun _ => .ret ⟨rfl, hm⟩

theorem cloneConnect (ns ms : List NodeId) (x : NodeId × NodeId) (hm : ∀ m ∈ ms, W m = 0) (hx : W x.2 = 0) :
    Winds W Id (Chain.cloneConnect ns ms x : KProg ℝ _) (Chain.cloneConnect ns ms x) := by
  unfold Chain.cloneConnect
  refine (parent x.1).seq fun o => ?_
  have rest : Winds W Id (do
        match ← Node.mimicParent x.1 with
        | some m =>
          let i ← Prog.expect (position m ns) "called `Option::unwrap()` on a `None` value"
          let m' ← Prog.expect ms[i]? "index out of bounds"
          Prog.doLock x.1
          let s ← Prog.doRead x.1
          let mimic ← Prog.expect s.mimic "called `Option::unwrap()` on a `None` value"
          Node.setMimicParent x.2 m' mimic
          Prog.doUnlock x.1
        | none => Pure.pure () : KProg ℝ Unit) (do
        match ← Node.mimicParent x.1 with
        | some m =>
          let i ← Prog.expect (position m ns) "called `Option::unwrap()` on a `None` value"
          let m' ← Prog.expect ms[i]? "index out of bounds"
          Prog.doLock x.1
          let s ← Prog.doRead x.1
          let mimic ← Prog.expect s.mimic "called `Option::unwrap()` on a `None` value"
          Node.setMimicParent x.2 m' mimic
          Prog.doUnlock x.1
        | none => Pure.pure () : KProg ℝ Unit) := by
    refine (mimicParent x.1).seq fun o => ?_
    cases o with
    | none => exact .ret rfl
    | some p =>
      refine (expectSame _ _).seq fun i => (expectWhere (P := fun m => W m = 0)
        (fun m e => hm m (List.mem_of_getElem? e)) _).bind fun m m' e => (doLock x.1).seq fun _ =>
        (doRead x.1).bind fun s s' r => ?_
      obtain ⟨rfl, e⟩ := e
      obtain ⟨j, l, rfl, -⟩ := r
      exact (expectSame s.mimic _).seq fun mi => (setMimicParent x.2 m' mi hx e).seq fun _ => doUnlock x.1
  cases o with
  | none => exact rest
  | some p =>
    exact (expectSame _ _).seq fun i => (expectSame _ _).seq fun m => (setParent x.2 m).seq fun _ => rest

theorem clone (fuel : Nat) (still : ∀ n ∈ c.nodes, W n = 0) : Winds W Id (c.clone fuel : KProg ℝ _) (c.clone fuel) := by
  rcases c with ⟨ns, ms, d⟩
  cases ns with
  | nil => exact .ret rfl
  | cons n ns =>
    refine (isRoot n).seq fun b => ?_
    cases b with
    | false => exact .panic _
    | true =>
      refine (mapStill (ns := n :: ns) fun m hm => cloneNode m (still m hm)).bind fun nn' nn e => ?_
      obtain ⟨rfl, hn⟩ := e
      refine seq (forEachMem fun x hx => cloneConnect (n :: ns) nn x hn (hn _ (List.of_mem_zip hx).2)) fun _ =>
        (expectSame nn.head? _).seq fun r => (isRoot r).seq fun b => ?_
      cases b with
      | false => exact .panic _
      | true => exact fromRoot fuel r

theorem tryNew : Winds W Id (c.tryNew : KProg ℝ _) c.tryNew := by
  unfold Chain.tryNew
  cases c.nodes.length with
  | zero => exact .panic _
  | succ k => exact seq (findFirst (fun n => (children n).seq fun cs => .ret rfl) _) fun o => .ret rfl

theorem display_wound {n : NodeId} {s s' : NodeImpl ℝ} (r : s.Wound W n s') (level : Nat) :
    displayLine level s' = displayLine level s := by
  obtain ⟨j, l, rfl, ⟨o, w, rfl, -⟩, hl, -⟩ := r
  rcases s with ⟨j, pa, ch, mp, mc, mi, lk⟩
  cases lk <;> cases l
  · rfl
  · exact hl.elim
  · exact hl.elim
  · obtain ⟨i, vs, cs, rfl, -⟩ := hl
    rfl

theorem fmtWithIndentLevel (fuel level : Nat) (n : NodeId) :
    Winds W Id (c.fmtWithIndentLevel fuel level n : KProg ℝ _) (c.fmtWithIndentLevel fuel level n) := by
  induction fuel generalizing level n with
  | zero => exact .diverge
  | succ fuel ih =>
    refine seq ?_ fun x => (doLock n).seq fun _ => (doRead n).bind fun s s' r => ?_
    · split
      · exact (peek n).bind fun s s' r => .ret (by rw [Id, display_wound r])
      · exact .ret rfl
    · obtain ⟨j, l, rfl, -⟩ := r
      exact seq (mapList (ih (level + 1)) s.children) fun _ => (doUnlock n).seq fun _ => .ret rfl

theorem display (fuel : Nat) : Winds W Id (c.display fuel : KProg ℝ _) (c.display fuel) := by
  rcases c with ⟨ns, ms, d⟩
  cases ns with
  | nil => exact .panic _
  | cons n ns => exact (fmtWithIndentLevel ⟨n :: ns, ms, d⟩ fuel 0 n).seq fun _ => .ret rfl

/-! ### kinematics -/


theorem fromAxisAngle_turns (a : V3 ℝ) (x : ℝ) (k : Int) (p : V3 ℝ) :
    Iso.EitherSign (⟨p, Quat.fromAxisAngle a x⟩ : Iso ℝ) ⟨p, Quat.fromAxisAngle a (x + k * (2 * Real.pi))⟩ := by
  have e : (x + k * (2 * Real.pi)) / (1 + 1) = x / (1 + 1) + k * Real.pi := by ring
  have c : Real.cos (x / (1 + 1) + k * Real.pi) = (-1) ^ k * Real.cos (x / (1 + 1)) := Real.cos_add_int_mul_pi _ _
  have s : Real.sin (x / (1 + 1) + k * Real.pi) = (-1) ^ k * Real.sin (x / (1 + 1)) := Real.sin_add_int_mul_pi _ _
  simp only [Quat.fromAxisAngle, Scalar.cos, Scalar.sin, e, c, s]
  rcases Int.even_or_odd k with h | h
  · left; simp [h.neg_one_zpow]
  · right; simp [h.neg_one_zpow, Iso.otherSign]

theorem _root_.K.Joint.Wound.local {k : Int} {j j' : Joint ℝ} (r : j.Wound k j') :
    j.localTransform.EitherSign j'.localTransform := by
  obtain ⟨o, w, rfl, ho, -, hc⟩ := r
  refine ho.mul ?_
  by_cases h : k = 0
  · subst h
    left
    simp [Joint.jointTransform]
  · obtain ⟨⟨a, ea⟩, -⟩ := hc h
    simp only [Joint.jointTransform, ea]
    exact fromAxisAngle_turns a j.position k _

theorem setWorldTransform_joint {k : Int} {t t' : Iso ℝ} (r : t.EitherSign t') {j j' : Joint ℝ} (s : j.Wound k j') :
    (j.setWorldTransform t).Wound k (j'.setWorldTransform t') := by
  obtain ⟨o, w, rfl, ho, -, hc⟩ := s
  exact ⟨_, _, rfl, ho, r, hc⟩
theorem setWorldVelocity_joint {k : Int} (v : Velocity ℝ) {j j' : Joint ℝ} (s : j.Wound k j') :
    (j.setWorldVelocity v).Wound k (j'.setWorldVelocity v) := by
  obtain ⟨o, w, rfl, ho, hw, hc⟩ := s
  exact ⟨_, _, rfl, ho, hw, hc⟩

theorem updateTransform (n : NodeId) :
    Winds W Iso.EitherSign (Chain.updateTransform n : KProg ℝ _) (Chain.updateTransform n) :=
  (parentWorldTransform n).bind fun o o' r => (expect r _).bind fun t t' x => (joint n).bind fun j j' y => by
    refine seq (poke ?_) fun _ => .ret (x.mul y.local)
    exact jointOnly fun _ _ => setWorldTransform_joint (x.mul y.local)

theorem updateTransforms : Winds W (OneByOne Iso.EitherSign) (c.updateTransforms : KProg ℝ _) c.updateTransforms :=
  mapListTo updateTransform c.nodes

theorem updateVelocity (n : NodeId) : Winds W Id (Chain.updateVelocity n : KProg ℝ _) (Chain.updateVelocity n) := by
  refine (parentWorldTransform n).bind fun o o' r => (expect r _).bind fun t t' x => (parentWorldVelocity n).seq fun ov =>
    (expectSame ov _).seq fun v => (doLock n).seq fun _ => (doRead n).bind fun s s' r => ?_
  obtain ⟨j, l, rfl, ⟨o, w, rfl, -⟩, -⟩ := r
  refine seq ?_ fun w => (doUnlock n).seq fun _ => by
    refine seq (poke ?_) fun _ => .ret rfl
    exact jointOnly fun _ _ => setWorldVelocity_joint w
  dsimp only
  cases s.joint.jointType with
  | fixed => exact .ret rfl
  | rotational a =>
    refine (parent n).seq fun o => (expectSame o _).seq fun p => (joint p).bind fun j j' y =>
      (worldTransform n).bind fun o o' z => (expect z _).bind fun w w' z => (joint n).bind fun j2 j2' y2 => ?_
    obtain ⟨_, _, rfl, ho, -⟩ := y
    obtain ⟨_, _, rfl, -⟩ := y2
    refine (expectSame j2.jointVelocity _).seq fun q => .ret ?_
    simp only [Id, ho.trans_eq, x.matRotate, z.matRotate]
  | linear a =>
    refine (worldTransform n).bind fun o o' z => (expect z _).bind fun w w' z => (joint n).bind fun j2 j2' y2 => ?_
    obtain ⟨_, _, rfl, -⟩ := y2
    refine (expectSame j2.jointVelocity _).seq fun q => .ret ?_
    simp only [Id, z.matRotate]

theorem updateVelocities : Winds W Id (c.updateVelocities : KProg ℝ _) c.updateVelocities :=
  (updateTransforms c).bind fun _ _ _ => mapList updateVelocity c.nodes

theorem updateLinkTransforms : Winds W Id (c.updateLinkTransforms : KProg ℝ _) c.updateLinkTransforms := by
  refine (updateTransforms c).bind fun _ _ _ => forEachSame (fun n => ?_) c.nodes
  refine (parentWorldTransform n).bind fun o o' r => (expect r _).bind fun t t' x => poke fun s s' y => ?_
  obtain ⟨j, l, rfl, hj, hl, hm⟩ := y
  refine ⟨_, _, rfl, hj, ?_, hm⟩
  rcases s with ⟨j, pa, ch, mp, mc, mi, lk⟩
  cases lk <;> cases l
  · trivial
  · exact hl.elim
  · exact hl.elim
  · exact Signed.placeLink x hl

theorem foldTransform (ns : List NodeId) {t t' : Iso ℝ} (r : t.EitherSign t') :
    Winds W Iso.EitherSign (Chain.foldTransform ns t) (Chain.foldTransform ns t') := by
  induction ns generalizing t t' with
  | nil => exact .ret r
  | cons n ns ih => exact (joint n).bind fun j j' x => ih (r.mul x.local)
theorem endTransform : Winds W Iso.EitherSign (c.endTransform : KProg ℝ _) c.endTransform :=
  foldTransform c.nodes (.refl _)

theorem jacobianColumn_wound {k : Int} {t t' : Iso ℝ} (r : t.EitherSign t') (p : V3 ℝ) {j j' : Joint ℝ} (s : j.Wound k j') :
    jacobianColumn p j' t' = jacobianColumn p j t := by
  obtain ⟨o, w, rfl, -⟩ := s
  simp only [jacobianColumn, r.rotate, r.trans_eq]

theorem jacobian : Winds W Id (K.jacobian c : KProg ℝ _) (K.jacobian c) := by
  refine (endTransform c).bind fun t t' r => (updateTransforms c).bind fun _ _ _ => mapList (fun n => ?_) c.movableNodes
  refine (doLock n).seq fun _ => (doRead n).bind fun s s' y => ?_
  obtain ⟨j, l, rfl, hj, -⟩ := y
  have hw : BothOrNone Iso.EitherSign s.joint.worldTransform j.worldTransform := by
    obtain ⟨_, _, rfl, -, hw, -⟩ := hj; exact hw
  refine bind (expect hw _) fun w w' z => ?_
  rw [r.trans_eq]
  dsimp only
  rw [jacobianColumn_wound z _ hj]
  exact seq (ofExcept _) fun _ => (doUnlock n).seq fun _ => .ret rfl

theorem comLoop (ns : List NodeId) (a : ComAcc ℝ) : Winds W Id (comLoop ns a) (comLoop ns a) := by
  induction ns generalizing a with
  | nil => exact .ret rfl
  | cons n ns ih =>
    refine (worldTransform n).bind fun o o' r => ?_
    cases o <;> cases o'
    · exact ih _
    · exact r.elim
    · exact r.elim
    · rename_i t t'
      refine (link n).bind fun l l' y => ?_
      have : comAdd a (some t') l' = comAdd a (some t) l := by
        cases l <;> cases l'
        · rfl
        · exact y.elim
        · exact y.elim
        · obtain ⟨i, vs, cs, rfl, ⟨o, w, rfl, ho, -⟩, -⟩ := y
          simp only [comAdd, ho.trans_eq, Iso.EitherSign.mulTrans r]
      rw [this]
      exact ih _

theorem centerOfMass : Winds W Id (K.centerOfMass c : KProg ℝ _) (K.centerOfMass c) :=
  (updateTransforms c).bind fun _ _ _ => (comLoop c.nodes _).seq fun _ => .ret rfl

/-! ### inverse kinematics -/

variable {target target' : Iso ℝ}

theorem add_coords (mult : ℝ) (ns : List NodeId) (xs ys : List ℝ) :
    addPositionsWithMultiplier mult (W.list ns xs) ys = W.list ns (addPositionsWithMultiplier mult xs ys) := by
  induction ns generalizing xs ys with
  | nil => cases xs <;> rfl
  | cons n ns ih =>
    cases xs with
    | nil => rfl
    | cons x xs =>
      cases ys with
      | nil => rfl
      | cons y ys =>
        have := ih xs ys
        simp only [addPositionsWithMultiplier] at this
        simp only [addPositionsWithMultiplier, Winding.list, List.zipWith_cons_cons, this, Winding.coord]
        congr 1
        ring

theorem ok_bind {E A B : Type} (a : A) (f : A → Except E B) : (Except.ok a >>= f) = f a := rfl
theorem error_bind {E A B : Type} (e : E) (f : A → Except E B) : (Except.error e >>= f) = .error e := rfl

theorem nextPositions_wound {s s' : IkSolver ℝ} (hs : s.Wound W c s') (ops : List Bool) (ign : List Nat) (dof : Nat) (jac : Mat ℝ)
    (err xs : List ℝ) :
    K.nextPositions s' ops ign dof jac err (W.coords c xs) =
      (K.nextPositions s ops ign dof jac err xs).map fun r => r.map (W.coords c) := by
  obtain ⟨f, rfl, hf⟩ := hs
  simp only [K.nextPositions]
  cases removeRows ops 0 0 jac with
  | error m => rfl
  | ok j1 =>
    simp only [ok_bind]
    cases removeIndices ign 0 j1 with
    | error m => rfl
    | ok j2 =>
      simp only [ok_bind]
      split
      · split
        · rfl
        · rcases s with ⟨a1, a2, a3, a4, g, la⟩
          cases g <;> cases f
          · dsimp only
            cases insertZeros ign (la.svdSolve j2 err) with
            | error m => rfl
            | ok dq =>
              simp only [ok_bind, Winding.coords, add_coords]
              rfl
          · exact hf.elim
          · exact hf.elim
          · rename_i g f
            dsimp only
            rw [show f (W.coords c xs) = g xs from hf xs]
            cases g xs with
            | error m => rfl
            | ok sub =>
              simp only [ok_bind]
              cases removeIndices ign 0 sub with
              | error m => rfl
              | ok sub =>
                simp only [ok_bind]
                split
                · rfl
                · cases insertZeros ign (nullspaceStep (dof - ign.length) (la.pinv j2) j2 err sub) with
                  | error m => rfl
                  | ok dq =>
                    simp only [ok_bind, Winding.coords, add_coords]
                    rfl
      · cases s.la.lu j2 err with
        | none => rfl
        | some x =>
          simp only [Winding.coords, add_coords]
          rfl

theorem solveOneLoop {s s' : IkSolver ℝ} (hs : s.Wound W c s') (ops : List Bool) (sees : Signed.Sees target target' ops) (ign : List Nat) :
    Winds W Id (K.solveOneLoop s c target ops ign) (K.solveOneLoop s' c target' ops ign) := by
  refine (jointPositions c).bind fun orig orig' eo => (endTransform c).bind fun tn tn' r => (jacobian c).seq fun jac => ?_
  subst eo
  rw [sees _ _ r, nextPositions_wound c hs]
  cases K.nextPositions s ops ign c.dof jac (calcPoseDiffWithConstraints target tn ops) orig with
  | error m => exact .panic m
  | ok x =>
    cases x with
    | error e' => exact .ret rfl
    | ok ps =>
      exact (setJointPositionsClamped c ps).seq fun _ => (endTransform c).bind fun t t' r => .ret (by rw [Id, sees _ _ r])

theorem tryLoop {s s' : IkSolver ℝ} (hs : s.Wound W c s') (ops : List Bool) (sees : Signed.Sees target target' ops) (ign : List Nat) (orig : List ℝ) (left : Nat)
    (last : Option (V3 ℝ × V3 ℝ)) :
    Winds W Id (K.tryLoop s c target ops ign orig left last)
      (K.tryLoop s' c target' ops ign (W.coords c orig) left last) := by
  induction left generalizing last with
  | zero =>
    refine (setJointPositions c orig).seq fun r => ?_
    cases r with
    | error e => exact .ret rfl
    | ok u =>
      refine (expectSame last _).seq fun _ => .ret ?_
      obtain ⟨f, rfl, -⟩ := hs
      rfl
  | succ left ih =>
    refine (solveOneLoop c hs ops sees ign).seq fun r => ?_
    cases r with
    | error e => exact .ret rfl
    | ok diff =>
      have re : ∀ a b, reached s' a b = reached s a b := fun a b => by obtain ⟨f, rfl, -⟩ := hs; rfl
      dsimp only
      rw [re]
      split
      · refine (jointPositions c).bind fun xs xs' e => ?_
        subst e
        exact (setJointPositionsClamped c xs).seq fun _ => .ret rfl
      · exact ih _

theorem jointIndex (name : String) (ns : List NodeId) :
    Winds W Id (K.jointIndex name ns : KProg ℝ _) (K.jointIndex name ns) := by
  induction ns with
  | nil => exact .ret rfl
  | cons n ns ih =>
    refine (joint n).bind fun j j' r => ?_
    obtain ⟨_, _, rfl, -⟩ := r
    dsimp only
    split
    · exact .ret rfl
    · exact ih.seq fun _ => .ret rfl

theorem ignoredIndices (names : List String) :
    Winds W Id (K.ignoredIndices c names : KProg ℝ _) (K.ignoredIndices c names) := by
  induction names with
  | nil => exact .ret rfl
  | cons x xs ih =>
    refine (jointIndex x c.movableNodes).seq fun o => ?_
    cases o with
    | none => exact .ret rfl
    | some i => exact ih.seq fun r => by cases r <;> exact .ret rfl

theorem solveInternal {s s' : IkSolver ℝ} (hs : s.Wound W c s') (k : Constraints)
    (sees : Signed.Sees target target' (defineOperationalSpace k)) :
    Winds W Id (K.solveInternal s c target k) (K.solveInternal s' c target' k) := by
  have mt : s'.numMaxTry = s.numMaxTry := by obtain ⟨f, rfl, -⟩ := hs; rfl
  refine (jointPositions c).bind fun orig orig' eo => ?_
  subst eo
  split
  · exact .panic _
  · dsimp only
    split
    · exact .ret rfl
    · refine (ignoredIndices c _).seq fun r => ?_
      cases r with
      | error e => exact .ret rfl
      | ok is =>
        dsimp only
        rw [mt]
        exact tryLoop c hs _ sees _ _ _ _

theorem solveWithConstraints {s s' : IkSolver ℝ} (hs : s.Wound W c s') (k : Constraints)
    (sees : Signed.Sees target target' (defineOperationalSpace k)) :
    Winds W Id (K.solveWithConstraints s c target k) (K.solveWithConstraints s' c target' k) := by
  refine (jointPositions c).bind fun orig orig' eo => ?_
  subst eo
  refine (solveInternal c hs k sees).seq fun r => ?_
  cases r with
  | ok u => exact .ret rfl
  | error e => exact (setJointPositions c orig).seq fun r => by cases r <;> exact .ret rfl

/-! ### calls and clients -/

theorem woundZero {j j' : Joint ℝ} (r : j.EitherSign j') : j.Wound 0 j' := by
  obtain ⟨o, w, rfl, ho, hw⟩ := r
  exact ⟨o, w, by simp, ho, hw, fun h => absurd rfl h⟩

theorem same : {β : Type} → (c : Call ℝ β) → c.NoCoords → Winds W (c.WoundAnswer W) c.prog c.prog
  | _, .newNode j, _ => new (woundZero (.refl j))
  | _, .setParent n p, _ => setParent n p
  | _, .removeParent n p, _ => removeParent n p
  | _, .setMimicParent n p m, no => no.elim
  | _, .setLink n l, _ => setLink n (BothOrNone.refl .refl l)
  | _, .setOrigin n t, _ => setOrigin n (.refl t)
  | _, .setJointPosition n x, no => no.elim
  | _, .setJointPositionClamped n x, no => no.elim
  | _, .setJointPositionUnchecked n x, no => no.elim
  | _, .joint n, _ => joint n
  | _, .jointPosition n, _ => jointPosition n
  | _, .parent n, _ => parent n
  | _, .mimicParent n, _ => mimicParent n
  | _, .children n, _ => children n
  | _, .link n, _ => link n
  | _, .isRoot n, _ => isRoot n
  | _, .isEnd n, _ => isEnd n
  | _, .origin n, _ => origin n
  | _, .worldTransform n, _ => worldTransform n
  | _, .worldVelocity n, _ => worldVelocity n
  | _, .iterAncestors fuel n, _ => ancestors fuel (some n)
  | _, .iterDescendants fuel n, _ => descendants fuel [n]
  | _, .fromNodes ns, _ => fromNodes ns
  | _, .fromRoot fuel n, _ => fromRoot fuel n
  | _, .fromEnd fuel n, _ => fromEnd fuel n
  | _, .fromEndToRoot fuel e r, _ => fromEndToRoot fuel e r
  | _, .chainSetOrigin c t, _ => chainSetOrigin c (.refl t)
  | _, .chainOrigin c, _ => chainOrigin c
  | _, .iterJoints c, _ => iterJoints c
  | _, .iterLinks c, _ => iterLinks c
  | _, .find c name, _ => find c name
  | _, .jointPositions c, _ => jointPositions c
  | _, .setJointPositions c xs, no => no.elim
  | _, .setJointPositionsClamped c xs, no => no.elim
  | _, .setJointPositionsUnchecked c xs, no => no.elim
  | _, .updateTransforms c, _ => updateTransforms c
  | _, .updateVelocities c, _ => updateVelocities c
  | _, .updateLinkTransforms c, _ => updateLinkTransforms c
  | _, .cloneChain _ _, no => no.elim
  | _, .tryNew c, _ => tryNew c
  | _, .endTransform c, _ => endTransform c
  | _, .display fuel c, _ => display c fuel
  | _, .jacobian c, _ => jacobian c
  | _, .centerOfMass c, _ => centerOfMass c
  | _, .solve _ _ _ _, no => no.elim

theorem call {β : Type} {c c' : Call ℝ β} (r : c.Wound W c') : Winds W (c.WoundAnswer W) c.prog c'.prog := by
  cases r with
  | newNode r => exact new (woundZero r)
  | setLink n r => exact setLink n r
  | setOrigin n r => exact setOrigin n r
  | chainSetOrigin c r => exact chainSetOrigin c r
  | setMimicParent n p m hn hp => exact setMimicParent n p m hn hp
  | setJointPosition n x => exact setJointPosition n x
  | setJointPositionClamped n x => exact setJointPositionClamped n x
  | setJointPositionUnchecked n x => exact setJointPositionUnchecked n x
  | setJointPositions c xs => exact setJointPositions c xs
  | setJointPositionsClamped c xs => exact setJointPositionsClamped c xs
  | setJointPositionsUnchecked c xs => exact setJointPositionsUnchecked c xs
  | cloneChain fuel c still => exact clone c fuel still
  | solve c hs r cs no => exact solveWithConstraints c hs cs (Signed.sees_of_not_turning r cs no)
  | other c no => exact same c no

theorem client {p q : Client ℝ α} (r : p.Wound W q) : Winds W Id p.prog q.prog := by
  induction r with
  | done a => exact .ret rfl
  | call k k' r _ ih => exact (call r).bind fun a a' x => ih a a' x

/-- programs that do the same up to turns, one by one -/
inductive All (W : Winding) : List (KProg ℝ α) → List (KProg ℝ α) → Prop
  | nil : All W [] []
  | cons {p q ps qs} (h : Winds W Id p q) (t : All W ps qs) : All W (p :: ps) (q :: qs)

theorem All.get {ps qs : List (KProg ℝ α)} (a : All W ps qs) (i : Nat) {p : KProg ℝ α} (e : ps[i]? = some p) :
    ∃ q, qs[i]? = some q ∧ Winds W Id p q := by
  induction a generalizing i with
  | nil => simp at e
  | cons h t ih =>
    cases i with
    | zero => simp at e; subst e; exact ⟨_, rfl, h⟩
    | succ i => exact ih i (by simpa using e)

theorem All.back {ps qs : List (KProg ℝ α)} (a : All W ps qs) (i : Nat) {q : KProg ℝ α} (e : qs[i]? = some q) :
    ∃ p, ps[i]? = some p ∧ Winds W Id p q := by
  induction a generalizing i with
  | nil => simp at e
  | cons h t ih =>
    cases i with
    | zero => simp at e; subst e; exact ⟨_, rfl, h⟩
    | succ i => exact ih i (by simpa using e)

theorem All.set {ps qs : List (KProg ℝ α)} (a : All W ps qs) (i : Nat) {p q : KProg ℝ α} (h : Winds W Id p q) :
    All W (ps.set i p) (qs.set i q) := by
  induction a generalizing i with
  | nil => exact .nil
  | cons h' t ih =>
    cases i with
    | zero => exact .cons h t
    | succ i => exact .cons h' (ih i)

end Winds

/-- sequencing outcomes -/
theorem WoundOutcome.bind {Q : α → β → Prop} {R : γ → δ → Prop} {p : KProg ℝ α} {q : KProg ℝ β} {h g : KHeap ℝ}
    (o : WoundOutcome W Q (run p h) (run q g)) {f : α → KProg ℝ γ} {k : β → KProg ℝ δ}
    (next : ∀ a b h' g', run p h = .ok a h' → Q a b → Wound W h' g' →
      WoundOutcome W R (run (f a) h') (run (k b) g')) :
    WoundOutcome W R (run (p >>= f) h) (run (q >>= k) g) := by
  rw [run_bind, run_bind]
  cases e : run p h <;> cases e' : run q g <;> rw [e, e'] at o <;> simp only [WoundOutcome] at o
  · exact next _ _ _ _ e o.1 o.2
  · exact o
  · exact o
  · trivial

end

end K
