import Verif.Lemmas.Blind
import Verif.Lemmas.SetAll
/-!
# The calls of the API that do not look at cached values
-/

set_option linter.unusedSectionVars false

namespace K
open Prog
variable {T : Type} {α β γ δ ε : Type}

/-- the program gives the same answer whatever the cached values are, and leaves the other contents of the memory
the same -/
def Same (X : Ctx) (p : KProg T α) : Prop := ∀ C, Two X ∅ (fun a b => a = b) C p p

namespace Same
variable {X : Ctx}

theorem ret (a : α) : Same X (.ret a : KProg T α) := fun _ => .ret rfl (Set.empty_subset _)
theorem pure (a : α) : Same X (Pure.pure a : KProg T α) := ret a
theorem panic (m : String) : Same X (.panic m : KProg T α) := fun _ => .panic m
theorem diverge : Same X (.diverge : KProg T α) := fun _ => .diverge
theorem doLock (n : NodeId) : Same X (doLock n : KProg T Unit) := fun C => .lock (ret _ C)
theorem doUnlock (n : NodeId) : Same X (doUnlock n : KProg T Unit) := fun C => .unlock (ret _ C)
theorem doUpgrade (n : NodeId) : Same X (doUpgrade n : KProg T Bool) := fun C => .upgrade fun b _ => ret b C

theorem bind {p : KProg T α} {f : α → KProg T β} (h : Same X p) (hf : ∀ a, Same X (f a)) : Same X (p >>= f) :=
  fun C => (h C).bind fun D a b _ _ e => e ▸ hf a D

/-- reading a node, when what follows does not depend on the cached values -/
theorem readBind {n : NodeId} {f : NodeImpl T → KProg T β}
    (e : ∀ (s : NodeImpl T) wt wv, f { s with joint := { s.joint with
      worldTransformCache := wt, worldVelocityCache := wv } } = f s)
    (h : ∀ s, Same X (f s)) : Same X (doRead n >>= f) := fun C =>
  .read fun s s' _ ce => by
    obtain ⟨wt, wv, rfl⟩ := ce.node
    show Two X ∅ _ C (f s) (f _)
    exact e s wt wv ▸ h s C

theorem peekBind {n : NodeId} {f : NodeImpl T → KProg T β}
    (e : ∀ (s : NodeImpl T) wt wv, f { s with joint := { s.joint with
      worldTransformCache := wt, worldVelocityCache := wv } } = f s)
    (h : ∀ s, Same X (f s)) : Same X (peek n >>= f) := fun C =>
  .lock <| .read fun s s' _ ce => .unlock <| by
    obtain ⟨wt, wv, rfl⟩ := ce.node
    show Two X ∅ _ C (f s) (f _)
    exact e s wt wv ▸ h s C

/-- a change of a node that keeps equal what was equal -/
def Neutral (f : NodeImpl T → NodeImpl T) : Prop :=
  ∀ D n s s', CacheEq D n s s' → CacheEq D n (f s) (f s')

theorem doWrite {n : NodeId} {f : NodeImpl T → NodeImpl T} (hf : Neutral f) (hp : ∀ s, X.par n s.parent → X.par n (f s).parent) :
    Same X (doWrite n f) := fun C =>
  .write C (Set.Subset.refl _) (fun _ hx => .inl hx) (fun D s s' cd pr e => ⟨hp s pr, by
    have := hf D n s s' e
    rw [Set.union_eq_self_of_subset_right cd]
    exact this⟩) (ret _ C)

theorem poke {n : NodeId} {f : NodeImpl T → NodeImpl T} (hf : Neutral f) (hp : ∀ s, X.par n s.parent → X.par n (f s).parent) :
    Same X (poke n f) := (doLock n).bind fun _ => (doWrite hf hp).bind fun _ => doUnlock n

theorem doAlloc {s : NodeImpl T} (hp : s.parent = none) : Same X (doAlloc s) := fun C =>
  .alloc hp ⟨⟨_, _, rfl⟩, fun x => absurd x (Set.notMem_empty _), fun x => absurd x (Set.notMem_empty _)⟩
    fun m _ => ret m C

theorem expect (o : Option α) (m : String) : Same X (expect o m : KProg T α) := by
  cases o
  · exact panic m
  · exact ret _
theorem ofExcept (x : Except String α) : Same X (Prog.ofExcept x : KProg T α) := by
  cases x
  · exact panic _
  · exact ret _

theorem forEach (xs : List γ) {f : γ → KProg T Unit} (hf : ∀ x, Same X (f x)) : Same X (forEach xs f) := by
  induction xs with
  | nil => exact ret _
  | cons x xs ih => exact (hf x).bind fun _ => ih

theorem mapList (xs : List γ) {f : γ → KProg T δ} (hf : ∀ x, Same X (f x)) : Same X (mapList xs f) := by
  induction xs with
  | nil => exact ret _
  | cons x xs ih => exact (hf x).bind fun _ => ih.bind fun _ => ret _

theorem filterList (xs : List γ) {f : γ → KProg T Bool} (hf : ∀ x, Same X (f x)) : Same X (filterList xs f) := by
  induction xs with
  | nil => exact ret _
  | cons x xs ih => exact (hf x).bind fun _ => ih.bind fun _ => ret _

theorem findFirst (xs : List γ) {f : γ → KProg T Bool} (hf : ∀ x, Same X (f x)) : Same X (findFirst xs f) := by
  induction xs with
  | nil => exact ret _
  | cons x xs ih =>
    refine (hf x).bind fun b => ?_
    cases b
    · exact ih
    · exact ret _

theorem tryEach (xs : List γ) {f : γ → KProg T (Except ε Unit)} (hf : ∀ x, Same X (f x)) :
    Same X (tryEach xs f) := by
  induction xs with
  | nil => exact ret _
  | cons x xs ih =>
    refine (hf x).bind fun b => ?_
    cases b
    · exact ret _
    · exact ih

end Same

variable [Scalar T]

macro "same" : tactic => `(tactic| repeat' (first
  | exact Same.ret _ | exact Same.pure _ | exact Same.panic _ | exact Same.diverge | exact Same.doLock _
  | exact Same.doUnlock _ | exact Same.doUpgrade _ | exact Same.doAlloc rfl
  | exact Same.expect _ _ | exact Same.ofExcept _ | assumption
  | refine Same.peekBind (fun _ _ _ => rfl) ?_ | refine Same.readBind (fun _ _ _ => rfl) ?_
  | refine Same.bind ?_ ?_ | refine Same.forEach _ ?_ | refine Same.mapList _ ?_
  | refine Same.filterList _ ?_ | refine Same.findFirst _ ?_ | refine Same.tryEach _ ?_
  | intro _ | split))

namespace Same
variable {X : Ctx}

/-- a change of the joint that keeps equal what was equal -/
theorem neutral_joint {F : Joint T → Joint T}
    (hF : ∀ j wt wv, ∃ wt' wv', F { j with worldTransformCache := wt, worldVelocityCache := wv } =
        { F j with worldTransformCache := wt', worldVelocityCache := wv' } ∧
      (wt = j.worldTransformCache → wt' = (F j).worldTransformCache) ∧
      (wv = j.worldVelocityCache → wv' = (F j).worldVelocityCache)) :
    Neutral fun s : NodeImpl T => { s with joint := F s.joint } := by
  intro D n s s' e
  obtain ⟨wt, wv, rfl⟩ := e.node
  obtain ⟨wt', wv', ef, et, ev⟩ := hF s.joint wt wv
  refine ⟨⟨wt', wv', by simp only [ef]⟩, fun x => ?_, fun x => ?_⟩
  · show (F _).worldTransformCache = _
    rw [ef]; exact et (e.transform x)
  · show (F _).worldVelocityCache = _
    rw [ef]; exact ev (e.velocity x)

theorem neutral_setJointPosition (x : T) :
    Neutral fun s : NodeImpl T => { s with joint := (s.joint.setJointPosition x).1 } := by
  refine neutral_joint (F := fun j => (j.setJointPosition x).1) fun j wt wv => ?_
  rcases j with ⟨nm, jt, po, v, lim, o, c1, c2⟩
  unfold Joint.setJointPosition
  cases lim with
  | none => cases jt <;> exact ⟨_, _, rfl, by simp [Joint.isMovable], by simp [Joint.isMovable]⟩
  | some l =>
    cases hb : l.isValid x <;> cases jt <;>
      first
      | (refine ⟨wt, wv, ?_⟩; simp [Joint.isMovable, hb]; done)
      | (refine ⟨none, none, ?_⟩; simp [Joint.isMovable, hb]; done)

theorem neutral_clamped (x : T) :
    Neutral fun s : NodeImpl T => { s with joint := s.joint.setJointPositionClamped x } := by
  refine neutral_joint (F := fun j => j.setJointPositionClamped x) fun j wt wv => ?_
  rcases j with ⟨nm, jt, po, v, lim, o, c1, c2⟩
  unfold Joint.setJointPositionClamped Joint.setJointPositionUnchecked
  cases jt
  · exact ⟨wt, wv, by simp [Joint.isMovable], by simp [Joint.isMovable], by simp [Joint.isMovable]⟩
  all_goals exact ⟨none, none, by simp [Joint.isMovable], by simp [Joint.isMovable], by simp [Joint.isMovable]⟩

theorem neutral_unchecked (x : T) :
    Neutral fun s : NodeImpl T => { s with joint := s.joint.setJointPositionUnchecked x } :=
  neutral_joint (F := fun j => j.setJointPositionUnchecked x) fun _ _ _ => ⟨none, none, rfl, fun _ => rfl, fun _ => rfl⟩

theorem neutral_setOrigin (t : Iso T) :
    Neutral fun s : NodeImpl T => { s with joint := s.joint.setOrigin t } :=
  neutral_joint (F := fun j => j.setOrigin t) fun _ _ wv => ⟨none, wv, rfl, fun _ => rfl, fun e => e⟩

/-- a change that does not concern the joint -/
theorem neutral_other {f : NodeImpl T → NodeImpl T}
    (hf : ∀ (s : NodeImpl T) j, f { s with joint := j } = { f s with joint := j }) : Neutral f := by
  intro D n s s' e
  have hj : ∀ s, (f s).joint = s.joint := fun s => by
    have := hf s s.joint
    exact (congrArg NodeImpl.joint this :)
  obtain ⟨wt, wv, rfl⟩ := e.node
  refine ⟨⟨wt, wv, by rw [hf, hj]⟩, fun x => ?_, fun x => ?_⟩
  · rw [hj, hj]; exact e.transform x
  · rw [hj, hj]; exact e.velocity x

theorem setJointPosition (n : NodeId) (x : T) : Same X (Node.setJointPosition n x) := by
  have res : ∀ (j : Joint T) (y : T) wt wv,
      (Joint.setJointPosition { j with worldTransformCache := wt, worldVelocityCache := wv } y).2 =
        (j.setJointPosition y).2 := fun j y _ _ => setJointPosition_result_congr _ _ y rfl rfl rfl
  have joint : ∀ m (f : Joint T → KProg T (Except (KError T) Unit)), (∀ j wt wv, f { j with
      worldTransformCache := wt, worldVelocityCache := wv } = f j) → (∀ j, Same X (f j)) →
      Same X (Node.joint m >>= f) := by
    intro m f e h
    exact peekBind (f := fun s => f s.joint) (fun s wt wv => e _ _ _) fun s => h _
  refine (doLock n).bind fun _ => readBind (fun s wt wv => ?_) fun s => ?_
  · simp only [res]
  · split
    · same
    · refine (doWrite (neutral_setJointPosition x) fun _ h => h).bind fun _ => ?_
      split
      · same
      · refine (tryEach _ fun c => ?_).bind fun _ => (doUnlock _).bind fun _ => ret _
        refine (doLock c).bind fun _ => readBind (fun s wt wv => ?_) fun s => ?_
        · simp only [res]
        · split
          · refine (doWrite (neutral_setJointPosition _) fun _ h => h).bind fun _ => ?_
            same
          · refine joint _ _ (fun _ _ _ => rfl) fun _ => joint _ _ (fun _ _ _ => rfl) fun _ => ?_
            same

theorem setJointPositions (c : Chain) (xs : List T) : Same X (c.setJointPositions xs) := by
  unfold Chain.setJointPositions
  split
  · exact ret _
  · exact tryEach _ fun _ => setJointPosition _ _

theorem jointPositions (c : Chain) : Same X (c.jointPositions : KProg T _) := by
  simp only [Chain.jointPositions]; same

theorem setJointPositionsClamped (c : Chain) (xs : List T) : Same X (c.setJointPositionsClamped xs) :=
  forEach _ fun _ => poke (neutral_clamped _) fun _ h => h

theorem jointBind {n : NodeId} {f : Joint T → KProg T β}
    (e : ∀ (j : Joint T) wt wv, f { j with worldTransformCache := wt, worldVelocityCache := wv } = f j)
    (h : ∀ j, Same X (f j)) : Same X (Node.joint n >>= f) :=
  peekBind (f := fun s => f s.joint) (fun s wt wv => e _ _ _) fun s => h _

theorem endTransform (c : Chain) : Same X (c.endTransform : KProg T _) := by
  unfold Chain.endTransform
  generalize (Iso.one : Iso T) = t
  induction c.nodes generalizing t with
  | nil => exact ret _
  | cons n ns ih => exact jointBind (fun _ _ _ => rfl) fun _ => ih _

theorem parent (n : NodeId) : Same X (Node.parent n : KProg T _) := by
  unfold Node.parent
  refine (doLock n).bind fun _ => readBind (fun s wt wv => rfl) fun s => ?_
  split <;> same

theorem jointIndex (name : String) (ns : List NodeId) : Same X (jointIndex name ns : KProg T _) := by
  induction ns with
  | nil => exact ret _
  | cons n ns ih =>
    refine jointBind (fun _ _ _ => rfl) fun _ => ?_
    split
    · exact ret _
    · exact ih.bind fun _ => ret _

theorem ignoredIndices (arm : Chain) (names : List String) :
    Same X (ignoredIndices arm names : KProg T _) := by
  induction names with
  | nil => exact ret _
  | cons a as ih =>
    refine (jointIndex a _).bind fun x => ?_
    split
    · exact ih.bind fun y => by cases y <;> exact ret _
    · exact ret _

theorem descendants (fuel : Nat) (stack : List NodeId) : Same X (descendants fuel stack : KProg T _) := by
  induction fuel generalizing stack with
  | zero => cases stack <;> same
  | succ fuel ih =>
    cases stack with
    | nil => same
    | cons n stack => exact peekBind (fun _ _ _ => rfl) fun _ => (ih _).bind fun _ => ret _

theorem ancestors (fuel : Nat) (o : Option NodeId) : Same X (ancestors fuel o : KProg T _) := by
  induction fuel generalizing o with
  | zero => cases o <;> same
  | succ fuel ih =>
    cases o with
    | none => same
    | some n => exact (parent n).bind fun _ => (ih _).bind fun _ => ret _

theorem ancestorsUntil (stop : NodeId) (fuel : Nat) (o : Option NodeId) :
    Same X (ancestorsUntil stop fuel o : KProg T _) := by
  induction fuel generalizing o with
  | zero => cases o <;> same
  | succ fuel ih =>
    cases o with
    | none => same
    | some n =>
      refine (parent n).bind fun _ => ?_
      split
      · same
      · exact (ih _).bind fun _ => ret _

theorem fromNodes (ns : List NodeId) : Same X (Chain.fromNodes ns : KProg T _) := by
  refine (filterList _ fun n => ?_).bind fun _ => ret _
  exact jointBind (fun _ _ _ => rfl) fun _ => ret _

theorem display (fuel level : Nat) (c : Chain) (n : NodeId) :
    Same X (c.fmtWithIndentLevel fuel level n : KProg T _) := by
  induction fuel generalizing level n with
  | zero => exact diverge
  | succ fuel ih =>
    unfold Chain.fmtWithIndentLevel
    refine bind ?_ fun _ => (doLock n).bind fun _ => readBind (fun s wt wv => rfl) fun s =>
      (mapList _ fun m => ih _ _).bind fun _ => (doUnlock n).bind fun _ => ret _
    split
    · exact peekBind (fun _ _ _ => rfl) fun _ => ret _
    · exact ret _

end Same
end K
