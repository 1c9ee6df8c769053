import Verif.Spec.Sign
import Verif.Lemmas.Run
/-!
# Every call of the API does the same with either sign of the quaternions
-/

set_option linter.unusedSectionVars false

namespace K
open Prog
variable {T : Type} {α β γ δ ε : Type} [Scalar T]

/-! ## geometry -/

section geometry
variable [SignLaws T]

theorem Iso.otherSign_otherSign (t : Iso T) : t.otherSign.otherSign = t := by
  simp [Iso.otherSign, SignLaws.neg_neg]

namespace Iso.EitherSign
variable {t t' a a' b b' : Iso T}

theorem refl (t : Iso T) : t.EitherSign t := .inl rfl

theorem trans_eq (r : t.EitherSign t') : t'.trans = t.trans := by rcases r with rfl | rfl <;> rfl

theorem rotate_otherSign (t : Iso T) (v : V3 T) : t.otherSign.rot.rotate v = t.rot.rotate v := by
  simp only [Iso.otherSign, Quat.rotate, Quat.vec, V3.cross, V3.scale, V3.add, SignLaws.neg_mul, SignLaws.mul_neg,
    SignLaws.neg_sub_neg, SignLaws.neg_neg]

theorem matRotate_otherSign (t : Iso T) (v : V3 T) : t.otherSign.rot.matRotate v = t.rot.matRotate v := by
  simp only [Iso.otherSign, Quat.matRotate, SignLaws.neg_mul, SignLaws.mul_neg, SignLaws.neg_neg]

theorem rotate (r : t.EitherSign t') (v : V3 T) : t'.rot.rotate v = t.rot.rotate v := by
  rcases r with rfl | rfl
  · rfl
  · exact rotate_otherSign t v

theorem matRotate (r : t.EitherSign t') (v : V3 T) : t'.rot.matRotate v = t.rot.matRotate v := by
  rcases r with rfl | rfl
  · rfl
  · exact matRotate_otherSign t v

theorem otherSign_mul (a b : Iso T) : a.otherSign.mul b = (a.mul b).otherSign := by
  have : a.otherSign.trans = a.trans := rfl
  simp only [Iso.mul, rotate_otherSign, this]
  simp only [Iso.otherSign, Quat.mul, SignLaws.neg_mul, SignLaws.neg_sub_neg, SignLaws.neg_add_neg]

theorem mul_otherSign (a b : Iso T) : a.mul b.otherSign = (a.mul b).otherSign := by
  simp only [Iso.mul, Iso.otherSign, Quat.mul, SignLaws.mul_neg, SignLaws.neg_sub_neg, SignLaws.neg_add_neg]

theorem mul (ra : a.EitherSign a') (rb : b.EitherSign b') : (a.mul b).EitherSign (a'.mul b') := by
  rcases ra with rfl | rfl <;> rcases rb with rfl | rfl
  · exact .inl rfl
  · exact .inr (mul_otherSign _ _)
  · exact .inr (otherSign_mul _ _)
  · left; rw [mul_otherSign, otherSign_mul, otherSign_otherSign]

theorem mulTrans (r : t.EitherSign t') (v : V3 T) : (t'.mulTrans v).trans = (t.mulTrans v).trans := by
  simp only [Iso.mulTrans, r.trans_eq, r.rotate]

end Iso.EitherSign

theorem Joint.EitherSign.local {j j' : Joint T} (r : j.EitherSign j') :
    j.localTransform.EitherSign j'.localTransform := by
  obtain ⟨o, w, rfl, ho, -⟩ := r
  exact ho.mul (.refl _)

theorem jacobianColumn_sign {t t' : Iso T} (r : t.EitherSign t') (p : V3 T) {j j' : Joint T} (s : j.EitherSign j') :
    jacobianColumn p j' t' = jacobianColumn p j t := by
  obtain ⟨o, w, rfl, -, -⟩ := s
  simp only [jacobianColumn, r.rotate, r.trans_eq]

end geometry

/-! ## relations -/

theorem BothOrNone.refl {R : α → α → Prop} (h : ∀ a, R a a) (o : Option α) : BothOrNone R o o := by
  cases o with
  | none => trivial
  | some a => exact h a

theorem OneByOne.refl {R : α → α → Prop} (h : ∀ a, R a a) (l : List α) : OneByOne R l l := by
  induction l with
  | nil => trivial
  | cons a l ih => exact ⟨h a, ih⟩

theorem OneByOne.map {R : α → α → Prop} {S : β → β → Prop} {f g : α → β} (h : ∀ a b, R a b → S (f a) (g b)) {l l' : List α}
    (r : OneByOne R l l') : OneByOne S (l.map f) (l'.map g) := by
  induction l generalizing l' with
  | nil => cases l' with
    | nil => trivial
    | cons b l' => exact r.elim
  | cons a l ih => cases l' with
    | nil => exact r.elim
    | cons b l' => exact ⟨h _ _ r.1, ih r.2⟩

theorem OneByOne.present {R : α → α → Prop} {l l' : List (Option α)} (r : OneByOne (BothOrNone R) l l') :
    OneByOne R (l.filterMap id) (l'.filterMap id) := by
  induction l generalizing l' with
  | nil => cases l' with
    | nil => trivial
    | cons b l' => exact r.elim
  | cons a l ih => cases l' with
    | nil => exact r.elim
    | cons b l' =>
      cases a <;> cases b
      · exact ih (l' := l') r.2
      · exact r.1.elim
      · exact r.1.elim
      · exact ⟨r.1, ih (l' := l') r.2⟩

theorem Joint.EitherSign.refl (j : Joint T) : j.EitherSign j :=
  ⟨_, _, rfl, .inl rfl, BothOrNone.refl (fun _ => .inl rfl) _⟩
theorem Link.EitherSign.refl (l : Link T) : l.EitherSign l :=
  ⟨_, _, _, rfl, ⟨_, _, rfl, .inl rfl, BothOrNone.refl (fun _ => .inl rfl) _⟩,
    OneByOne.refl (fun _ => ⟨_, _, rfl, .inl rfl, BothOrNone.refl (fun _ => .inl rfl) _⟩) _,
    OneByOne.refl (fun _ => ⟨_, _, rfl, .inl rfl, BothOrNone.refl (fun _ => .inl rfl) _⟩) _⟩
theorem NodeImpl.EitherSign.refl (s : NodeImpl T) : s.EitherSign s :=
  ⟨_, _, rfl, .refl _, BothOrNone.refl .refl _⟩
theorem EitherSign.refl (h : KHeap T) : EitherSign h h := ⟨fun _ => .refl _, rfl, rfl, rfl⟩

theorem NodeImpl.EitherSign.fresh {j j' : Joint T} (r : j.EitherSign j') :
    (NodeImpl.fresh j).EitherSign (NodeImpl.fresh j') := ⟨_, _, rfl, r, trivial⟩

namespace EitherSign
variable {h g : KHeap T}

theorem setHeld (r : EitherSign h g) (n : NodeId) (b : Bool) : EitherSign (h.setHeld n b) (g.setHeld n b) :=
  ⟨r.node, r.next, r.dead, by simp only [Heap.setHeld, r.held]⟩

theorem modify (r : EitherSign h g) (n : NodeId) {f f' : NodeImpl T → NodeImpl T}
    (hf : ∀ s s' : NodeImpl T, s.EitherSign s' → (f s).EitherSign (f' s')) :
    EitherSign (h.modify n f) (g.modify n f') := by
  refine ⟨fun m => ?_, r.next, r.dead, r.held⟩
  simp only [Heap.modify]
  by_cases x : m = n
  · subst x; simp only [if_true]; exact hf _ _ (r.node _)
  · simp only [if_neg x]; exact r.node m

theorem push (r : EitherSign h g) {s s' : NodeImpl T} (hs : s.EitherSign s') : EitherSign (h.push s) (g.push s') := by
  refine ⟨fun m => ?_, ?_, ?_, ?_⟩
  · simp only [Heap.push, r.next]
    by_cases x : m = h.next
    · simp only [if_pos x]; exact hs
    · simp only [if_neg x]; exact r.node m
  · simp only [Heap.push, r.next]
  · simp only [Heap.push, r.dead, r.next]
  · simp only [Heap.push, r.held, r.next]

theorem free (r : EitherSign h g) (F : NodeId → Bool) : EitherSign (h.free F) (g.free F) :=
  ⟨r.node, r.next, by simp only [Heap.free, r.dead], r.held⟩

end EitherSign

/-- `q` does with either sign what `p` does -/
inductive Signed (Q : α → β → Prop) : KProg T α → KProg T β → Prop
  | ret {a b} (q : Q a b) : Signed Q (.ret a) (.ret b)
  | lock {n k k'} (x : Signed Q k k') : Signed Q (.lock n k) (.lock n k')
  | unlock {n k k'} (x : Signed Q k k') : Signed Q (.unlock n k) (.unlock n k')
  | read {n k k'} (x : ∀ s s', NodeImpl.EitherSign s s' → Signed Q (k s) (k' s')) : Signed Q (.read n k) (.read n k')
  | write {n f f' k k'} (hf : ∀ s s' : NodeImpl T, s.EitherSign s' → (f s).EitherSign (f' s'))
      (x : Signed Q k k') : Signed Q (.write n f k) (.write n f' k')
  | upgrade {n k k'} (x : ∀ b, Signed Q (k b) (k' b)) : Signed Q (.upgrade n k) (.upgrade n k')
  | alloc {s s' k k'} (hs : NodeImpl.EitherSign s s') (x : ∀ m, Signed Q (k m) (k' m)) :
      Signed Q (.alloc s k) (.alloc s' k')
  | panic (m : String) : Signed Q (.panic m) (.panic m)
  | diverge : Signed Q .diverge .diverge

/-- outcomes that are the same up to signs -/
def SignOutcome (Q : α → β → Prop) : Res (NodeImpl T) α → Res (NodeImpl T) β → Prop
  | .ok a h, .ok b g => Q a b ∧ EitherSign h g
  | .panic m h, .panic m' g => m' = m ∧ EitherSign h g
  | .blocked n h, .blocked n' g => n' = n ∧ EitherSign h g
  | .diverged, .diverged => True
  | _, _ => False

namespace Signed
variable {Q : α → β → Prop} {R : γ → δ → Prop}

theorem outcome {p : KProg T α} {q : KProg T β} (s : Signed Q p q) {h g : KHeap T} (r : EitherSign h g) :
    SignOutcome Q (run p h) (run q g) := by
  induction s generalizing h g with
  | ret q => exact ⟨q, r⟩
  | @lock n k k' _ ih =>
    simp only [K.run, r.held]
    split
    · exact ⟨rfl, r⟩
    · exact ih (r.setHeld n true)
  | unlock _ ih => exact ih (r.setHeld _ false)
  | read _ ih => exact ih _ _ (r.node _) r
  | write hf _ ih => exact ih (r.modify _ hf)
  | upgrade _ ih => simp only [K.run, r.dead]; exact ih _ r
  | alloc hs _ ih => simp only [K.run, r.next]; exact ih _ (r.push hs)
  | panic m => exact ⟨rfl, r⟩
  | diverge => trivial

theorem step {p p' : KProg T α} {q : KProg T β} (s : Signed Q p q) {h g h' : KHeap T} (r : EitherSign h g)
    (e : step1 p h = some (p', h')) :
    ∃ q' g', step1 q g = some (q', g') ∧ EitherSign h' g' ∧ Signed Q p' q' := by
  cases s with
  | ret q => cases e
  | @lock n k k' x =>
    simp only [step1] at e ⊢
    rw [r.held]
    split at e
    · cases e
    · cases e; rename_i y
      rw [if_neg y]
      exact ⟨_, _, rfl, r.setHeld _ _, x⟩
  | unlock x => cases e; exact ⟨_, _, rfl, r.setHeld _ _, x⟩
  | read x => cases e; exact ⟨_, _, rfl, r, x _ _ (r.node _)⟩
  | write hf x => cases e; exact ⟨_, _, rfl, r.modify _ hf, x⟩
  | upgrade x => cases e; exact ⟨_, _, rfl, r, by rw [r.dead]; exact x _⟩
  | alloc hs x => cases e; exact ⟨_, _, rfl, r.push hs, by rw [r.next]; exact x _⟩
  | panic m => cases e
  | diverge => cases e; exact ⟨_, _, rfl, r, .diverge⟩

theorem back {p : KProg T α} {q q' : KProg T β} (s : Signed Q p q) {h g g' : KHeap T} (r : EitherSign h g)
    (e : step1 q g = some (q', g')) :
    ∃ p' h', step1 p h = some (p', h') ∧ EitherSign h' g' ∧ Signed Q p' q' := by
  cases s with
  | ret q => cases e
  | @lock n k k' x =>
    simp only [step1] at e ⊢
    rw [r.held] at e
    split at e
    · cases e
    · cases e; rename_i y
      rw [if_neg y]
      exact ⟨_, _, rfl, r.setHeld _ _, x⟩
  | unlock x => cases e; exact ⟨_, _, rfl, r.setHeld _ _, x⟩
  | read x => cases e; exact ⟨_, _, rfl, r, x _ _ (r.node _)⟩
  | write hf x => cases e; exact ⟨_, _, rfl, r.modify _ hf, x⟩
  | upgrade x => cases e; exact ⟨_, _, rfl, r, by rw [r.dead]; exact x _⟩
  | alloc hs x => cases e; exact ⟨_, _, rfl, r.push hs, by rw [r.next]; exact x _⟩
  | panic m => cases e
  | diverge => cases e; exact ⟨_, _, rfl, r, .diverge⟩

theorem bind {p : KProg T α} {q : KProg T β} (s : Signed Q p q) {f : α → KProg T γ} {g : β → KProg T δ}
    (hf : ∀ a b, Q a b → Signed R (f a) (g b)) : Signed R (p >>= f) (q >>= g) := by
  show Signed R (p.bind f) (q.bind g)
  induction s with
  | ret q => exact hf _ _ q
  | lock _ ih => exact .lock ih
  | unlock _ ih => exact .unlock ih
  | read _ ih => exact .read fun s s' r => ih s s' r
  | write h _ ih => exact .write h ih
  | upgrade _ ih => exact .upgrade fun b => ih b
  | alloc h _ ih => exact .alloc h fun m => ih m
  | panic m => exact .panic m
  | diverge => exact .diverge

/-- the same value -/
abbrev Id : α → α → Prop := fun a b => b = a

/-- sequencing after the same value -/
theorem seq {p q : KProg T α} (s : Signed Id p q) {f : α → KProg T γ} {g : α → KProg T δ}
    (hf : ∀ a, Signed R (f a) (g a)) : Signed R (p >>= f) (q >>= g) :=
  s.bind fun a b e => by subst e; exact hf _

theorem doLock (n : NodeId) : Signed Id (doLock n : KProg T Unit) (doLock n) := .lock (.ret rfl)
theorem doUnlock (n : NodeId) : Signed Id (doUnlock n : KProg T Unit) (doUnlock n) := .unlock (.ret rfl)
theorem doUpgrade (n : NodeId) : Signed Id (doUpgrade n : KProg T Bool) (doUpgrade n) := .upgrade fun _ => .ret rfl
theorem doRead (n : NodeId) : Signed NodeImpl.EitherSign (doRead n : KProg T _) (doRead n) :=
  .read fun _ _ r => .ret r
theorem doWrite {n : NodeId} {f f' : NodeImpl T → NodeImpl T}
    (hf : ∀ s s' : NodeImpl T, s.EitherSign s' → (f s).EitherSign (f' s')) :
    Signed Id (doWrite n f) (doWrite n f') := .write hf (.ret rfl)
theorem peek (n : NodeId) : Signed NodeImpl.EitherSign (peek n : KProg T _) (peek n) :=
  .lock (.read fun _ _ r => .unlock (.ret r))
theorem poke {n : NodeId} {f f' : NodeImpl T → NodeImpl T}
    (hf : ∀ s s' : NodeImpl T, s.EitherSign s' → (f s).EitherSign (f' s')) :
    Signed Id (poke n f) (poke n f') := .lock (.write hf (.unlock (.ret rfl)))
theorem expect {R : α → α → Prop} {o o' : Option α} (r : BothOrNone R o o') (m : String) :
    Signed R (expect o m : KProg T α) (expect o' m) := by
  cases o <;> cases o' <;> first | exact r.elim | exact .panic m | exact .ret r
theorem expectSame (o : Option α) (m : String) : Signed Id (Prog.expect o m : KProg T α) (Prog.expect o m) := by
  cases o with
  | none => exact .panic m
  | some a => exact .ret rfl
theorem ofExcept (x : Except String α) : Signed Id (ofExcept x : KProg T α) (ofExcept x) := by
  cases x with
  | error m => exact .panic m
  | ok a => exact .ret rfl

theorem forEach {f g : γ → KProg T Unit} (h : ∀ x, Signed Id (f x) (g x)) (xs : List γ) :
    Signed Id (forEach xs f) (forEach xs g) := by
  induction xs with
  | nil => exact .ret rfl
  | cons x xs ih => exact (h x).bind fun _ _ _ => ih

theorem mapListTo {R : α → α → Prop} {f g : γ → KProg T α} (h : ∀ x, Signed R (f x) (g x)) (xs : List γ) :
    Signed (OneByOne R) (Prog.mapList xs f) (Prog.mapList xs g) := by
  induction xs with
  | nil => exact .ret trivial
  | cons x xs ih => exact (h x).bind fun a b q => ih.bind fun as bs qs => .ret ⟨q, qs⟩

theorem mapList {f g : γ → KProg T α}
    (h : ∀ x, Signed Id (f x) (g x)) (xs : List γ) : Signed Id (Prog.mapList xs f) (Prog.mapList xs g) := by
  induction xs with
  | nil => exact .ret rfl
  | cons x xs ih => exact (h x).seq fun a => ih.seq fun as => .ret rfl

theorem filterList {f g : γ → KProg T Bool}
    (h : ∀ x, Signed Id (f x) (g x)) (xs : List γ) : Signed Id (filterList xs f) (filterList xs g) := by
  induction xs with
  | nil => exact .ret rfl
  | cons x xs ih => exact (h x).seq fun a => ih.seq fun as => .ret rfl

theorem findFirst {f g : γ → KProg T Bool}
    (h : ∀ x, Signed Id (f x) (g x)) (xs : List γ) : Signed Id (findFirst xs f) (findFirst xs g) := by
  induction xs with
  | nil => exact .ret rfl
  | cons x xs ih =>
    refine (h x).seq fun a => ?_
    cases a
    · exact ih
    · exact .ret rfl

theorem tryEach {f g : γ → KProg T (Except (KError T) Unit)} (h : ∀ x, Signed Id (f x) (g x))
    (xs : List γ) : Signed Id (tryEach xs f) (tryEach xs g) := by
  induction xs with
  | nil => exact .ret rfl
  | cons x xs ih =>
    refine (h x).seq fun a => ?_
    cases a with
    | error e => exact .ret rfl
    | ok u => exact ih

/-! ### nodes -/

theorem new {j j' : Joint T} (r : j.EitherSign j') : Signed Id (Node.new j) (Node.new j') :=
  .alloc (.fresh r) fun _ => .ret rfl
theorem joint (n : NodeId) : Signed Joint.EitherSign (Node.joint n : KProg T _) (Node.joint n) :=
  (peek n).bind fun s s' r => .ret (by obtain ⟨j, l, rfl, hj, -⟩ := r; exact hj)
theorem jointPosition (n : NodeId) : Signed Id (Node.jointPosition n : KProg T _) (Node.jointPosition n) :=
  (peek n).bind fun s s' r => .ret (by obtain ⟨j, l, rfl, ⟨o, w, rfl, -⟩, -⟩ := r; rfl)
theorem children (n : NodeId) : Signed Id (Node.children n : KProg T _) (Node.children n) :=
  (peek n).bind fun s s' r => .ret (by obtain ⟨j, l, rfl, -⟩ := r; rfl)
theorem link (n : NodeId) : Signed (BothOrNone Link.EitherSign) (Node.link n : KProg T _) (Node.link n) :=
  (peek n).bind fun s s' r => .ret (by obtain ⟨j, l, rfl, -, hl⟩ := r; exact hl)
theorem isRoot (n : NodeId) : Signed Id (Node.isRoot n : KProg T _) (Node.isRoot n) :=
  (peek n).bind fun s s' r => .ret (by obtain ⟨j, l, rfl, -⟩ := r; rfl)
theorem isEnd (n : NodeId) : Signed Id (Node.isEnd n : KProg T _) (Node.isEnd n) :=
  (peek n).bind fun s s' r => .ret (by obtain ⟨j, l, rfl, -⟩ := r; rfl)
theorem origin (n : NodeId) : Signed Iso.EitherSign (Node.origin n : KProg T _) (Node.origin n) :=
  (joint n).bind fun j j' r => .ret (by obtain ⟨o, w, rfl, ho, -⟩ := r; exact ho)
theorem worldTransform (n : NodeId) :
    Signed (BothOrNone Iso.EitherSign) (Node.worldTransform n : KProg T _) (Node.worldTransform n) :=
  (joint n).bind fun j j' r => .ret (by obtain ⟨o, w, rfl, -, hw⟩ := r; exact hw)
theorem worldVelocity (n : NodeId) : Signed Id (Node.worldVelocity n : KProg T _) (Node.worldVelocity n) :=
  (joint n).bind fun j j' r => .ret (by obtain ⟨o, w, rfl, -⟩ := r; rfl)

theorem parent (n : NodeId) : Signed Id (Node.parent n : KProg T _) (Node.parent n) := by
  refine (doLock n).seq fun _ => (doRead n).bind fun s s' r => ?_
  obtain ⟨j, l, rfl, -⟩ := r
  dsimp only
  cases s.parent with
  | none => exact (doUnlock n).seq fun _ => .ret rfl
  | some w => exact (doUpgrade w).seq fun b => (doUnlock n).seq fun _ => .ret rfl

theorem mimicParent (n : NodeId) : Signed Id (Node.mimicParent n : KProg T _) (Node.mimicParent n) := by
  refine (doLock n).seq fun _ => (doRead n).bind fun s s' r => ?_
  obtain ⟨j, l, rfl, -⟩ := r
  dsimp only
  cases s.mimicParent with
  | none => exact (doUnlock n).seq fun _ => .ret rfl
  | some w => exact (doUpgrade w).seq fun b => (doUnlock n).seq fun _ => .ret rfl

/-- an update of a node that has nothing to do with joint and link -/
theorem keeps {f : NodeImpl T → NodeImpl T} (hf : ∀ s j l, f { s with joint := j, link := l } =
    { f s with joint := j, link := l }) (hj : ∀ s, (f s).joint = s.joint) (hl : ∀ s, (f s).link = s.link)
    (s s' : NodeImpl T) (r : s.EitherSign s') : (f s).EitherSign (f s') := by
  obtain ⟨j, l, rfl, a, b⟩ := r
  exact ⟨j, l, hf s j l, by rw [hj]; exact a, by rw [hl]; exact b⟩

theorem setParent (n p : NodeId) : Signed Id (Node.setParent n p : KProg T _) (Node.setParent n p) := by
  refine seq (poke ?_) fun _ => poke ?_
  all_goals exact keeps (fun _ _ _ => rfl) (fun _ => rfl) fun _ => rfl
theorem removeParent (n p : NodeId) : Signed Id (Node.removeParent n p : KProg T _) (Node.removeParent n p) := by
  refine seq (poke ?_) fun _ => poke ?_
  all_goals exact keeps (fun _ _ _ => rfl) (fun _ => rfl) fun _ => rfl
theorem setMimicParent (n p : NodeId) (m : Mimic T) :
    Signed Id (Node.setMimicParent n p m) (Node.setMimicParent n p m) := by
  refine seq (poke ?_) fun _ => seq (poke ?_) fun _ => poke ?_
  all_goals exact keeps (fun _ _ _ => rfl) (fun _ => rfl) fun _ => rfl
theorem setLink (n : NodeId) {l l' : Option (Link T)} (r : BothOrNone Link.EitherSign l l') :
    Signed Id (Node.setLink n l) (Node.setLink n l') :=
  poke fun s s' x => by obtain ⟨j, l, rfl, a, -⟩ := x; exact ⟨_, _, rfl, a, r⟩

/-- an update of a joint -/
theorem jointOnly {f f' : Joint T → Joint T} (hf : ∀ j j' : Joint T, j.EitherSign j' → (f j).EitherSign (f' j'))
    (s s' : NodeImpl T) (r : s.EitherSign s') :
    ({ s with joint := f s.joint } : NodeImpl T).EitherSign { s' with joint := f' s'.joint } := by
  obtain ⟨j, l, rfl, a, b⟩ := r
  exact ⟨_, _, rfl, hf _ _ a, b⟩

theorem setOrigin_joint {t t' : Iso T} (r : t.EitherSign t') {j j' : Joint T} (s : j.EitherSign j') :
    (j.setOrigin t).EitherSign (j'.setOrigin t') := by
  obtain ⟨o, w, rfl, -⟩ := s
  exact ⟨_, _, rfl, r, trivial⟩
theorem unchecked_joint (x : T) {j j' : Joint T} (s : j.EitherSign j') :
    (j.setJointPositionUnchecked x).EitherSign (j'.setJointPositionUnchecked x) := by
  obtain ⟨o, w, rfl, ho, -⟩ := s
  exact ⟨_, _, rfl, ho, trivial⟩
theorem clamped_joint (x : T) {j j' : Joint T} (s : j.EitherSign j') :
    (j.setJointPositionClamped x).EitherSign (j'.setJointPositionClamped x) := by
  obtain ⟨o, w, rfl, ho, hw⟩ := s
  rcases j with ⟨nm, jt, po, v, lim, o', c1, c2⟩
  cases jt <;> first | exact ⟨_, _, rfl, ho, hw⟩ | exact ⟨_, _, rfl, ho, trivial⟩
theorem checked_joint (x : T) {j j' : Joint T} (s : j.EitherSign j') :
    (j.setJointPosition x).1.EitherSign (j'.setJointPosition x).1 ∧
      (j'.setJointPosition x).2 = (j.setJointPosition x).2 := by
  obtain ⟨o, w, rfl, ho, hw⟩ := s
  rcases j with ⟨nm, jt, po, v, lim, o', c1, c2⟩
  cases lim with
  | none =>
    cases jt <;> first | exact ⟨⟨_, _, rfl, ho, hw⟩, rfl⟩ | exact ⟨⟨_, _, rfl, ho, trivial⟩, rfl⟩
  | some r =>
    cases e : r.isValid x <;> cases jt <;> simp only [Joint.setJointPosition, Joint.isMovable, e] <;>
      first | exact ⟨⟨_, _, rfl, ho, hw⟩, rfl⟩ | exact ⟨⟨_, _, rfl, ho, trivial⟩, rfl⟩

theorem setOrigin (n : NodeId) {t t' : Iso T} (r : t.EitherSign t') :
    Signed Id (Node.setOrigin n t) (Node.setOrigin n t') := poke (jointOnly fun _ _ => setOrigin_joint r)
theorem setJointPositionClamped (n : NodeId) (x : T) :
    Signed Id (Node.setJointPositionClamped n x) (Node.setJointPositionClamped n x) :=
  poke (jointOnly fun _ _ => clamped_joint x)
theorem setJointPositionUnchecked (n : NodeId) (x : T) :
    Signed Id (Node.setJointPositionUnchecked n x) (Node.setJointPositionUnchecked n x) :=
  poke (jointOnly fun _ _ => unchecked_joint x)

theorem setMimicChild (n : NodeId) (x : T) (c : NodeId) :
    Signed Id (Node.setMimicChild n x c) (Node.setMimicChild n x c) := by
  refine (doLock c).seq fun _ => (doRead c).bind fun s s' r => ?_
  obtain ⟨j, l, rfl, hj, -⟩ := r
  dsimp only
  cases s.mimic with
  | none =>
    refine (joint n).bind fun j1 j1' r1 => (joint c).bind fun j2 j2' r2 => (doUnlock c).seq fun _ => .ret ?_
    obtain ⟨_, _, rfl, -⟩ := r1
    obtain ⟨_, _, rfl, -⟩ := r2
    rfl
  | some m =>
    refine seq (doWrite ?_) fun _ => (doUnlock c).seq fun _ => .ret (checked_joint _ hj).2
    exact jointOnly (f := fun j => (j.setJointPosition _).1) (f' := fun j => (j.setJointPosition _).1)
      fun _ _ r => (checked_joint _ r).1

theorem setJointPosition (n : NodeId) (x : T) :
    Signed Id (Node.setJointPosition n x) (Node.setJointPosition n x) := by
  refine (doLock n).seq fun _ => (doRead n).bind fun s s' r => ?_
  obtain ⟨j, l, rfl, hj, -⟩ := r
  dsimp only
  split
  · exact (doUnlock n).seq fun _ => .ret rfl
  · refine seq (doWrite ?_) fun _ => ?_
    · exact jointOnly (f := fun j => (j.setJointPosition _).1) (f' := fun j => (j.setJointPosition _).1)
        fun _ _ r => (checked_joint _ r).1
    · rw [(checked_joint x hj).2]
      cases (s.joint.setJointPosition x).2 with
      | error e => exact (doUnlock n).seq fun _ => .ret rfl
      | ok => exact (tryEach (setMimicChild n x) s.mimicChildren).seq fun r => (doUnlock n).seq fun _ => .ret rfl

theorem parentWorldTransform (n : NodeId) :
    Signed (BothOrNone Iso.EitherSign) (Node.parentWorldTransform n : KProg T _) (Node.parentWorldTransform n) :=
  (parent n).seq fun o => by
    cases o with
    | none => exact .ret (BothOrNone.refl (fun _ => .inl rfl) _)
    | some p => exact worldTransform p
theorem parentWorldVelocity (n : NodeId) :
    Signed Id (Node.parentWorldVelocity n : KProg T _) (Node.parentWorldVelocity n) :=
  (parent n).seq fun o => by
    cases o with
    | none => exact .ret rfl
    | some p => exact worldVelocity p

/-! ### iterators -/

theorem ancestors (fuel : Nat) (o : Option NodeId) : Signed Id (ancestors fuel o : KProg T _) (ancestors fuel o) := by
  induction fuel generalizing o with
  | zero =>
    cases o with
    | none => exact .ret rfl
    | some n => exact .diverge
  | succ fuel ih =>
    cases o with
    | none => exact .ret rfl
    | some n => exact (parent n).seq fun p => (ih p).seq fun _ => .ret rfl

theorem ancestorsUntil (stop : NodeId) (fuel : Nat) (o : Option NodeId) :
    Signed Id (ancestorsUntil stop fuel o : KProg T _) (ancestorsUntil stop fuel o) := by
  induction fuel generalizing o with
  | zero =>
    cases o with
    | none => exact .ret rfl
    | some n => exact .diverge
  | succ fuel ih =>
    cases o with
    | none => exact .ret rfl
    | some n =>
      refine (parent n).seq fun p => ?_
      split
      · exact .ret rfl
      · exact (ih p).seq fun _ => .ret rfl

theorem descendants (fuel : Nat) (st : List NodeId) :
    Signed Id (descendants fuel st : KProg T _) (descendants fuel st) := by
  induction fuel generalizing st with
  | zero =>
    cases st with
    | nil => exact .ret rfl
    | cons n st => exact .diverge
  | succ fuel ih =>
    cases st with
    | nil => exact .ret rfl
    | cons n st => exact (children n).seq fun cs => (ih _).seq fun _ => .ret rfl

/-! ### chains -/

theorem fromNodes (ns : List NodeId) : Signed Id (Chain.fromNodes ns : KProg T _) (Chain.fromNodes ns) := by
  refine seq (filterList (fun n => ?_) ns) fun _ => .ret rfl
  exact (joint n).bind fun _ _ r => .ret (by obtain ⟨_, _, rfl, -⟩ := r; rfl)
theorem fromRoot (fuel : Nat) (n : NodeId) : Signed Id (Chain.fromRoot fuel n : KProg T _) (Chain.fromRoot fuel n) :=
  (descendants fuel [n]).seq fun ns => fromNodes ns
theorem fromEnd (fuel : Nat) (n : NodeId) : Signed Id (Chain.fromEnd fuel n : KProg T _) (Chain.fromEnd fuel n) :=
  (ancestors fuel (some n)).seq fun _ => fromNodes _
theorem fromEndToRoot (fuel : Nat) (e r : NodeId) :
    Signed Id (Chain.fromEndToRoot fuel e r : KProg T _) (Chain.fromEndToRoot fuel e r) :=
  (ancestorsUntil r fuel (some e)).seq fun _ => fromNodes _

variable (c : Chain)

theorem chainSetOrigin {t t' : Iso T} (r : t.EitherSign t') : Signed Id (c.setOrigin t) (c.setOrigin t') := by
  rcases c with ⟨ns, ms, d⟩
  cases ns with
  | nil => exact .panic _
  | cons n ns => exact setOrigin n r
theorem chainOrigin : Signed Iso.EitherSign (c.origin : KProg T _) c.origin := by
  rcases c with ⟨ns, ms, d⟩
  cases ns with
  | nil => exact .panic _
  | cons n ns => exact origin n
theorem iterJoints : Signed (OneByOne Joint.EitherSign) (c.iterJoints : KProg T _) c.iterJoints :=
  mapListTo joint c.movableNodes

theorem iterLinks : Signed (OneByOne Link.EitherSign) (c.iterLinks : KProg T _) c.iterLinks := by
  refine bind (mapListTo (R := BothOrNone Link.EitherSign) (fun n => ?_) c.nodes) fun ls ls' r => .ret r.present
  refine (link n).bind fun l l' r => ?_
  cases l <;> cases l'
  · exact .ret trivial
  · exact r.elim
  · exact r.elim
  · refine (doLock n).seq fun _ => (doRead n).bind fun s s' r => ?_
    obtain ⟨j, l, rfl, -, hl⟩ := r
    exact bind (expect hl _) fun a a' x => (doUnlock n).seq fun _ => .ret x

theorem find (name : String) : Signed Id (c.find name : KProg T _) (c.find name) := by
  refine findFirst (fun n => ?_) c.nodes
  exact (joint n).bind fun _ _ r => .ret (by obtain ⟨_, _, rfl, -⟩ := r; rfl)

theorem jointPositions : Signed Id (c.jointPositions : KProg T _) c.jointPositions := by
  refine mapList (fun n => ?_) c.movableNodes
  refine (doLock n).seq fun _ => (doRead n).bind fun s s' r => ?_
  obtain ⟨j, l, rfl, ⟨o, w, rfl, -⟩, -⟩ := r
  exact seq (expectSame s.joint.jointPosition _) fun _ => (doUnlock n).seq fun _ => .ret rfl

theorem setJointPositions (xs : List T) : Signed Id (c.setJointPositions xs) (c.setJointPositions xs) := by
  unfold Chain.setJointPositions
  split
  · exact .ret rfl
  · exact tryEach (fun p : NodeId × T => setJointPosition p.1 p.2) _
theorem setJointPositionsClamped (xs : List T) :
    Signed Id (c.setJointPositionsClamped xs) (c.setJointPositionsClamped xs) :=
  forEach (fun p : NodeId × T => setJointPositionClamped p.1 p.2) _
theorem setJointPositionsUnchecked (xs : List T) :
    Signed Id (c.setJointPositionsUnchecked xs) (c.setJointPositionsUnchecked xs) :=
  forEach (fun p : NodeId × T => setJointPositionUnchecked p.1 p.2) _

theorem cloneNode (n : NodeId) : Signed Id (Chain.cloneNode n : KProg T _) (Chain.cloneNode n) := by
  refine (doLock n).seq fun _ => (doRead n).bind fun s s' r => ?_
  obtain ⟨j, l, rfl, hj, -⟩ := r
  refine (new hj).seq fun m => (doUnlock n).seq fun _ => (doLock n).seq fun _ => (doRead n).bind fun s s' r => ?_
  obtain ⟨j, l, rfl, -, hl⟩ := r
  exact (setLink m hl).seq fun _ => (doUnlock n).seq fun _ => .ret rfl

theorem cloneConnect (ns ms : List NodeId) (x : NodeId × NodeId) :
    Signed Id (Chain.cloneConnect ns ms x : KProg T _) (Chain.cloneConnect ns ms x) := by
  unfold Chain.cloneConnect
  refine (parent x.1).seq fun o => ?_
  have rest : Signed Id (do
        match ← Node.mimicParent x.1 with
        | some m =>
          let i ← Prog.expect (position m ns) "called `Option::unwrap()` on a `None` value"
          let m' ← Prog.expect ms[i]? "index out of bounds"
          Prog.doLock x.1
          let s ← Prog.doRead x.1
          let mimic ← Prog.expect s.mimic "called `Option::unwrap()` on a `None` value"
          Node.setMimicParent x.2 m' mimic
          Prog.doUnlock x.1
        | none => Pure.pure () : KProg T Unit) (do
        match ← Node.mimicParent x.1 with
        | some m =>
          let i ← Prog.expect (position m ns) "called `Option::unwrap()` on a `None` value"
          let m' ← Prog.expect ms[i]? "index out of bounds"
          Prog.doLock x.1
          let s ← Prog.doRead x.1
          let mimic ← Prog.expect s.mimic "called `Option::unwrap()` on a `None` value"
          Node.setMimicParent x.2 m' mimic
          Prog.doUnlock x.1
        | none => Pure.pure () : KProg T Unit) := by
    refine (mimicParent x.1).seq fun o => ?_
    cases o with
    | none => exact .ret rfl
    | some p =>
      refine (expectSame _ _).seq fun i => (expectSame _ _).seq fun m => (doLock x.1).seq fun _ =>
        (doRead x.1).bind fun s s' r => ?_
      obtain ⟨j, l, rfl, -⟩ := r
      exact (expectSame s.mimic _).seq fun mi => (setMimicParent x.2 m mi).seq fun _ => doUnlock x.1
  cases o with
  | none => exact rest
  | some p =>
    exact (expectSame _ _).seq fun i => (expectSame _ _).seq fun m => (setParent x.2 m).seq fun _ => rest

theorem clone (fuel : Nat) : Signed Id (c.clone fuel : KProg T _) (c.clone fuel) := by
  rcases c with ⟨ns, ms, d⟩
  cases ns with
  | nil => exact .ret rfl
  | cons n ns =>
    refine (isRoot n).seq fun b => ?_
    cases b with
    | false => exact .panic _
    | true =>
      refine (mapList cloneNode (n :: ns)).seq fun nn => (forEach (cloneConnect (n :: ns) nn) _).seq fun _ =>
        (expectSame nn.head? _).seq fun r => (isRoot r).seq fun b => ?_
      cases b with
      | false => exact .panic _
      | true => exact fromRoot fuel r

theorem tryNew : Signed Id (c.tryNew : KProg T _) c.tryNew := by
  unfold Chain.tryNew
  cases c.nodes.length with
  | zero => exact .panic _
  | succ k => exact seq (findFirst (fun n => (children n).seq fun cs => .ret rfl) _) fun o => .ret rfl

theorem display_sign {s s' : NodeImpl T} (r : s.EitherSign s') (level : Nat) :
    displayLine level s' = displayLine level s := by
  obtain ⟨j, l, rfl, ⟨o, w, rfl, -⟩, hl⟩ := r
  rcases s with ⟨j, pa, ch, mp, mc, mi, lk⟩
  cases lk <;> cases l
  · rfl
  · exact hl.elim
  · exact hl.elim
  · obtain ⟨i, vs, cs, rfl, -⟩ := hl
    rfl

theorem fmtWithIndentLevel (fuel level : Nat) (n : NodeId) :
    Signed Id (c.fmtWithIndentLevel fuel level n : KProg T _) (c.fmtWithIndentLevel fuel level n) := by
  induction fuel generalizing level n with
  | zero => exact .diverge
  | succ fuel ih =>
    refine seq ?_ fun x => (doLock n).seq fun _ => (doRead n).bind fun s s' r => ?_
    · split
      · exact (peek n).bind fun s s' r => .ret (by rw [Id, display_sign r])
      · exact .ret rfl
    · obtain ⟨j, l, rfl, -⟩ := r
      exact seq (mapList (ih (level + 1)) s.children) fun _ => (doUnlock n).seq fun _ => .ret rfl

theorem display (fuel : Nat) : Signed Id (c.display fuel : KProg T _) (c.display fuel) := by
  rcases c with ⟨ns, ms, d⟩
  cases ns with
  | nil => exact .panic _
  | cons n ns => exact (fmtWithIndentLevel ⟨n :: ns, ms, d⟩ fuel 0 n).seq fun _ => .ret rfl

/-! ### kinematics -/

variable [SignLaws T]

theorem setWorldTransform_joint {t t' : Iso T} (r : t.EitherSign t') {j j' : Joint T} (s : j.EitherSign j') :
    (j.setWorldTransform t).EitherSign (j'.setWorldTransform t') := by
  obtain ⟨o, w, rfl, ho, -⟩ := s
  exact ⟨_, _, rfl, ho, r⟩
theorem setWorldVelocity_joint (v : Velocity T) {j j' : Joint T} (s : j.EitherSign j') :
    (j.setWorldVelocity v).EitherSign (j'.setWorldVelocity v) := by
  obtain ⟨o, w, rfl, ho, hw⟩ := s
  exact ⟨_, _, rfl, ho, hw⟩

theorem updateTransform (n : NodeId) :
    Signed Iso.EitherSign (Chain.updateTransform n : KProg T _) (Chain.updateTransform n) :=
  (parentWorldTransform n).bind fun o o' r => (expect r _).bind fun t t' x => (joint n).bind fun j j' y => by
    refine seq (poke ?_) fun _ => .ret (x.mul y.local)
    exact jointOnly fun _ _ => setWorldTransform_joint (x.mul y.local)

theorem updateTransforms : Signed (OneByOne Iso.EitherSign) (c.updateTransforms : KProg T _) c.updateTransforms :=
  mapListTo updateTransform c.nodes

theorem updateVelocity (n : NodeId) : Signed Id (Chain.updateVelocity n : KProg T _) (Chain.updateVelocity n) := by
  refine (parentWorldTransform n).bind fun o o' r => (expect r _).bind fun t t' x => (parentWorldVelocity n).seq fun ov =>
    (expectSame ov _).seq fun v => (doLock n).seq fun _ => (doRead n).bind fun s s' r => ?_
  obtain ⟨j, l, rfl, ⟨o, w, rfl, -⟩, -⟩ := r
  refine seq ?_ fun w => (doUnlock n).seq fun _ => by
    refine seq (poke ?_) fun _ => .ret rfl
    exact jointOnly fun _ _ => setWorldVelocity_joint w
  dsimp only
  cases s.joint.jointType with
  | fixed => exact .ret rfl
  | rotational a =>
    refine (parent n).seq fun o => (expectSame o _).seq fun p => (joint p).bind fun j j' y =>
      (worldTransform n).bind fun o o' z => (expect z _).bind fun w w' z => (joint n).bind fun j2 j2' y2 => ?_
    obtain ⟨_, _, rfl, ho, -⟩ := y
    obtain ⟨_, _, rfl, -⟩ := y2
    refine (expectSame j2.jointVelocity _).seq fun q => .ret ?_
    simp only [Id, ho.trans_eq, x.matRotate, z.matRotate]
  | linear a =>
    refine (worldTransform n).bind fun o o' z => (expect z _).bind fun w w' z => (joint n).bind fun j2 j2' y2 => ?_
    obtain ⟨_, _, rfl, -⟩ := y2
    refine (expectSame j2.jointVelocity _).seq fun q => .ret ?_
    simp only [Id, z.matRotate]

theorem updateVelocities : Signed Id (c.updateVelocities : KProg T _) c.updateVelocities :=
  (updateTransforms c).bind fun _ _ _ => mapList updateVelocity c.nodes

theorem placeLink {t t' : Iso T} (r : t.EitherSign t') {l l' : Link T} (s : l.EitherSign l') :
    (Chain.placeLink t l).EitherSign (Chain.placeLink t' l') := by
  obtain ⟨i, vs, cs, rfl, ⟨o, w, rfl, ho, -⟩, hv, hc⟩ := s
  refine ⟨_, _, _, rfl, ⟨_, _, rfl, ho, r.mul ho⟩, hv.map fun a b x => ?_, hc.map fun a b x => ?_⟩
  · obtain ⟨_, _, rfl, ho, -⟩ := x
    exact ⟨_, _, rfl, ho, r.mul ho⟩
  · obtain ⟨_, _, rfl, ho, -⟩ := x
    exact ⟨_, _, rfl, ho, r.mul ho⟩

theorem updateLinkTransforms : Signed Id (c.updateLinkTransforms : KProg T _) c.updateLinkTransforms := by
  refine (updateTransforms c).bind fun _ _ _ => forEach (fun n => ?_) c.nodes
  refine (parentWorldTransform n).bind fun o o' r => (expect r _).bind fun t t' x => poke fun s s' y => ?_
  obtain ⟨j, l, rfl, hj, hl⟩ := y
  refine ⟨_, _, rfl, hj, ?_⟩
  rcases s with ⟨j, pa, ch, mp, mc, mi, lk⟩
  cases lk <;> cases l
  · trivial
  · exact hl.elim
  · exact hl.elim
  · exact placeLink x hl

theorem foldTransform (ns : List NodeId) {t t' : Iso T} (r : t.EitherSign t') :
    Signed Iso.EitherSign (Chain.foldTransform ns t) (Chain.foldTransform ns t') := by
  induction ns generalizing t t' with
  | nil => exact .ret r
  | cons n ns ih => exact (joint n).bind fun j j' x => ih (r.mul x.local)
theorem endTransform : Signed Iso.EitherSign (c.endTransform : KProg T _) c.endTransform :=
  foldTransform c.nodes (.refl _)

theorem jacobian : Signed Id (K.jacobian c : KProg T _) (K.jacobian c) := by
  refine (endTransform c).bind fun t t' r => (updateTransforms c).bind fun _ _ _ => mapList (fun n => ?_) c.movableNodes
  refine (doLock n).seq fun _ => (doRead n).bind fun s s' y => ?_
  obtain ⟨j, l, rfl, hj, -⟩ := y
  have hw : BothOrNone Iso.EitherSign s.joint.worldTransform j.worldTransform := by
    obtain ⟨_, _, rfl, -, hw⟩ := hj; exact hw
  refine bind (expect hw _) fun w w' z => ?_
  rw [r.trans_eq]
  dsimp only
  rw [jacobianColumn_sign z _ hj]
  exact seq (ofExcept _) fun _ => (doUnlock n).seq fun _ => .ret rfl

theorem comLoop (ns : List NodeId) (a : ComAcc T) : Signed Id (comLoop ns a) (comLoop ns a) := by
  induction ns generalizing a with
  | nil => exact .ret rfl
  | cons n ns ih =>
    refine (worldTransform n).bind fun o o' r => ?_
    cases o <;> cases o'
    · exact ih _
    · exact r.elim
    · exact r.elim
    · rename_i t t'
      refine (link n).bind fun l l' y => ?_
      have : comAdd a (some t') l' = comAdd a (some t) l := by
        cases l <;> cases l'
        · rfl
        · exact y.elim
        · exact y.elim
        · obtain ⟨i, vs, cs, rfl, ⟨o, w, rfl, ho, -⟩, -⟩ := y
          simp only [comAdd, ho.trans_eq, Iso.EitherSign.mulTrans r]
      rw [this]
      exact ih _

theorem centerOfMass : Signed Id (K.centerOfMass c : KProg T _) (K.centerOfMass c) :=
  (updateTransforms c).bind fun _ _ _ => (comLoop c.nodes _).seq fun _ => .ret rfl

/-! ### inverse kinematics -/

variable (s : IkSolver T) {target target' : Iso T}

/-- the error does not depend on the sign of the pose -/
def Sees (target target' : Iso T) (ops : List Bool) : Prop :=
  ∀ X X' : Iso T, X.EitherSign X' →
    calcPoseDiffWithConstraints target' X' ops = calcPoseDiffWithConstraints target X ops

theorem sees_of_not_turning (r : target.EitherSign target') (k : Constraints) (no : ¬ k.Turning) :
    Sees target target' (defineOperationalSpace k) := by
  intro X X' x
  rcases k with ⟨a, b, c, d, e, f, ig⟩
  simp only [Constraints.Turning, not_or, Bool.not_eq_true] at no
  obtain ⟨rfl, rfl, rfl⟩ := no
  simp only [calcPoseDiffWithConstraints, calcPoseDiff, defineOperationalSpace, r.trans_eq, x.trans_eq]
  cases a <;> cases b <;> cases c <;> rfl

theorem solveOneLoop (ops : List Bool) (sees : Sees target target' ops) (ign : List Nat) :
    Signed Id (K.solveOneLoop s c target ops ign) (K.solveOneLoop s c target' ops ign) := by
  refine (jointPositions c).seq fun orig => (endTransform c).bind fun tn tn' r => (jacobian c).seq fun jac => ?_
  rw [sees _ _ r]
  refine (ofExcept _).seq fun x => ?_
  cases x with
  | error e' => exact .ret rfl
  | ok ps =>
    exact (setJointPositionsClamped c ps).seq fun _ => (endTransform c).bind fun t t' r => .ret (by rw [Id, sees _ _ r])

theorem tryLoop (ops : List Bool) (sees : Sees target target' ops) (ign : List Nat) (orig : List T) (left : Nat)
    (last : Option (V3 T × V3 T)) :
    Signed Id (K.tryLoop s c target ops ign orig left last) (K.tryLoop s c target' ops ign orig left last) := by
  induction left generalizing last with
  | zero =>
    refine (setJointPositions c orig).seq fun r => ?_
    cases r with
    | error e => exact .ret rfl
    | ok u => exact (expectSame last _).seq fun _ => .ret rfl
  | succ left ih =>
    refine (solveOneLoop c s ops sees ign).seq fun r => ?_
    cases r with
    | error e => exact .ret rfl
    | ok diff =>
      dsimp only
      split
      · exact (jointPositions c).seq fun xs => (setJointPositionsClamped c xs).seq fun _ => .ret rfl
      · exact ih _

theorem jointIndex (name : String) (ns : List NodeId) :
    Signed Id (K.jointIndex name ns : KProg T _) (K.jointIndex name ns) := by
  induction ns with
  | nil => exact .ret rfl
  | cons n ns ih =>
    refine (joint n).bind fun j j' r => ?_
    obtain ⟨_, _, rfl, -⟩ := r
    dsimp only
    split
    · exact .ret rfl
    · exact ih.seq fun _ => .ret rfl

theorem ignoredIndices (names : List String) :
    Signed Id (K.ignoredIndices c names : KProg T _) (K.ignoredIndices c names) := by
  induction names with
  | nil => exact .ret rfl
  | cons x xs ih =>
    refine (jointIndex x c.movableNodes).seq fun o => ?_
    cases o with
    | none => exact .ret rfl
    | some i => exact ih.seq fun r => by cases r <;> exact .ret rfl

theorem solveInternal (k : Constraints) (sees : Sees target target' (defineOperationalSpace k)) :
    Signed Id (K.solveInternal s c target k) (K.solveInternal s c target' k) := by
  refine (jointPositions c).seq fun orig => ?_
  split
  · exact .panic _
  · dsimp only
    split
    · exact .ret rfl
    · refine (ignoredIndices c _).seq fun r => ?_
      cases r with
      | error e => exact .ret rfl
      | ok is => exact tryLoop c s _ sees _ _ _ _

theorem solveWithConstraints (k : Constraints) (sees : Sees target target' (defineOperationalSpace k)) :
    Signed Id (K.solveWithConstraints s c target k) (K.solveWithConstraints s c target' k) := by
  refine (jointPositions c).seq fun orig => (solveInternal c s k sees).seq fun r => ?_
  cases r with
  | ok u => exact .ret rfl
  | error e => exact (setJointPositions c orig).seq fun r => by cases r <;> exact .ret rfl

/-! ### calls and clients -/

theorem same : {β : Type} → (c : Call T β) → ¬ c.IsSolve → Signed c.SignAnswer c.prog c.prog
  | _, .newNode j, _ => new (.refl j)
  | _, .setParent n p, _ => setParent n p
  | _, .removeParent n p, _ => removeParent n p
  | _, .setMimicParent n p m, _ => setMimicParent n p m
  | _, .setLink n l, _ => setLink n (BothOrNone.refl .refl l)
  | _, .setOrigin n t, _ => setOrigin n (.refl t)
  | _, .setJointPosition n x, _ => setJointPosition n x
  | _, .setJointPositionClamped n x, _ => setJointPositionClamped n x
  | _, .setJointPositionUnchecked n x, _ => setJointPositionUnchecked n x
  | _, .joint n, _ => joint n
  | _, .jointPosition n, _ => jointPosition n
  | _, .parent n, _ => parent n
  | _, .mimicParent n, _ => mimicParent n
  | _, .children n, _ => children n
  | _, .link n, _ => link n
  | _, .isRoot n, _ => isRoot n
  | _, .isEnd n, _ => isEnd n
  | _, .origin n, _ => origin n
  | _, .worldTransform n, _ => worldTransform n
  | _, .worldVelocity n, _ => worldVelocity n
  | _, .iterAncestors fuel n, _ => ancestors fuel (some n)
  | _, .iterDescendants fuel n, _ => descendants fuel [n]
  | _, .fromNodes ns, _ => fromNodes ns
  | _, .fromRoot fuel n, _ => fromRoot fuel n
  | _, .fromEnd fuel n, _ => fromEnd fuel n
  | _, .fromEndToRoot fuel e r, _ => fromEndToRoot fuel e r
  | _, .chainSetOrigin c t, _ => chainSetOrigin c (.refl t)
  | _, .chainOrigin c, _ => chainOrigin c
  | _, .iterJoints c, _ => iterJoints c
  | _, .iterLinks c, _ => iterLinks c
  | _, .find c name, _ => find c name
  | _, .jointPositions c, _ => jointPositions c
  | _, .setJointPositions c xs, _ => setJointPositions c xs
  | _, .setJointPositionsClamped c xs, _ => setJointPositionsClamped c xs
  | _, .setJointPositionsUnchecked c xs, _ => setJointPositionsUnchecked c xs
  | _, .updateTransforms c, _ => updateTransforms c
  | _, .updateVelocities c, _ => updateVelocities c
  | _, .updateLinkTransforms c, _ => updateLinkTransforms c
  | _, .cloneChain fuel c, _ => clone c fuel
  | _, .tryNew c, _ => tryNew c
  | _, .endTransform c, _ => endTransform c
  | _, .display fuel c, _ => display c fuel
  | _, .jacobian c, _ => jacobian c
  | _, .centerOfMass c, _ => centerOfMass c
  | _, .solve _ _ _ _, no => absurd trivial no

theorem call {β : Type} {c c' : Call T β} (r : c.EitherSign c') : Signed c.SignAnswer c.prog c'.prog := by
  cases r with
  | newNode r => exact new r
  | setLink n r => exact setLink n r
  | setOrigin n r => exact setOrigin n r
  | chainSetOrigin c r => exact chainSetOrigin c r
  | solve s c r cs no => exact solveWithConstraints c s cs (sees_of_not_turning r cs no)
  | other c no => exact same c no

theorem client {p q : Client T α} (r : p.EitherSign q) : Signed Id p.prog q.prog := by
  induction r with
  | done a => exact .ret rfl
  | call k k' r _ ih => exact (call r).bind fun a a' x => ih a a' x

/-- programs that do the same up to signs, one by one -/
inductive All : List (KProg T α) → List (KProg T α) → Prop
  | nil : All [] []
  | cons {p q ps qs} (h : Signed Id p q) (t : All ps qs) : All (p :: ps) (q :: qs)

theorem All.get {ps qs : List (KProg T α)} (a : All ps qs) (i : Nat) {p : KProg T α} (e : ps[i]? = some p) :
    ∃ q, qs[i]? = some q ∧ Signed Id p q := by
  induction a generalizing i with
  | nil => simp at e
  | cons h t ih =>
    cases i with
    | zero => simp at e; subst e; exact ⟨_, rfl, h⟩
    | succ i => exact ih i (by simpa using e)

theorem All.back {ps qs : List (KProg T α)} (a : All ps qs) (i : Nat) {q : KProg T α} (e : qs[i]? = some q) :
    ∃ p, ps[i]? = some p ∧ Signed Id p q := by
  induction a generalizing i with
  | nil => simp at e
  | cons h t ih =>
    cases i with
    | zero => simp at e; subst e; exact ⟨_, rfl, h⟩
    | succ i => exact ih i (by simpa using e)

theorem All.set {ps qs : List (KProg T α)} (a : All ps qs) (i : Nat) {p q : KProg T α} (h : Signed Id p q) :
    All (ps.set i p) (qs.set i q) := by
  induction a generalizing i with
  | nil => exact .nil
  | cons h' t ih =>
    cases i with
    | zero => exact .cons h t
    | succ i => exact .cons h' (ih i)

end Signed

/-- sequencing outcomes -/
theorem SignOutcome.bind {Q : α → β → Prop} {R : γ → δ → Prop} {p : KProg T α} {q : KProg T β} {h g : KHeap T}
    (o : SignOutcome Q (run p h) (run q g)) {f : α → KProg T γ} {k : β → KProg T δ}
    (next : ∀ a b h' g', run p h = .ok a h' → Q a b → EitherSign h' g' →
      SignOutcome R (run (f a) h') (run (k b) g')) :
    SignOutcome R (run (p >>= f) h) (run (q >>= k) g) := by
  rw [run_bind, run_bind]
  cases e : run p h <;> cases e' : run q g <;> rw [e, e'] at o <;> simp only [SignOutcome] at o
  · exact next _ _ _ _ e o.1 o.2
  · exact o
  · exact o
  · trivial

end K
