import Verif.Lemmas.BlindCalls
/-!
# The calls of the API that compute and look at cached values
-/

set_option linter.unusedSectionVars false

namespace K
open Prog
variable {T : Type} {α β γ δ ε : Type} [Scalar T] {X : Ctx} {C D : Slots}

/-- see `CachesKnown` -/
def Listed (X : Ctx) (C : Slots) (K : Set CacheKind) (ns : List NodeId) : Prop :=
  ∀ pre n post, ns = pre ++ n :: post → n < X.bound ∧ ∀ w, X.par n (some w) → X.up w true →
    w ∈ pre ∨ ∀ k ∈ K, (w, k) ∈ C

theorem Listed.mono {K : Set CacheKind} {ns : List NodeId} (l : Listed X C K ns) (cd : C ⊆ D) : Listed X D K ns :=
  fun pre n post e => ⟨(l pre n post e).1, fun w p u => ((l pre n post e).2 w p u).imp_right fun a k hk => cd (a k hk)⟩

theorem Listed.kinds {K K' : Set CacheKind} {ns : List NodeId} (l : Listed X C K ns) (kk : K' ⊆ K) : Listed X C K' ns :=
  fun pre n post e => ⟨(l pre n post e).1, fun w p u => ((l pre n post e).2 w p u).imp_right fun a k hk => a k (kk hk)⟩

namespace Two

theorem parent (n : NodeId) :
    Two X ∅ (fun a b => a = b ∧ ∀ w, a = some w → X.par n (some w) ∧ X.up w true) C (Node.parent n : KProg T _)
      (Node.parent n) := by
  refine .lock <| .read fun s s' pr e => ?_
  have ep := e.parent
  show Two X ∅ _ C (match s.parent with | some _ => _ | none => _) (match s'.parent with | some _ => _ | none => _)
  rw [ep]
  cases hs : s.parent with
  | none => exact .unlock (.ret ⟨rfl, fun w hw => by cases hw⟩ (Set.empty_subset _))
  | some p =>
    refine .upgrade fun b hb => .unlock (.ret ⟨rfl, fun w hw => ?_⟩ (Set.empty_subset _))
    cases b
    · cases hw
    · cases hw; rw [hs] at pr; exact ⟨pr, hb⟩

theorem joint (n : NodeId) :
    Two X ∅ (fun j j' : Joint T => JointEq j j' ∧
      ((n, .transform) ∈ C → j'.worldTransformCache = j.worldTransformCache) ∧
      ((n, .velocity) ∈ C → j'.worldVelocityCache = j.worldVelocityCache)) C (Node.joint n) (Node.joint n) :=
  .lock <| .read fun _ _ _ e => .unlock (.ret ⟨e.joint, e.transform, e.velocity⟩ (Set.empty_subset _))

theorem reads (n : NodeId) :
    Two X ∅ (fun s s' : NodeImpl T => CacheEq C n s s') C (Prog.doRead n) (Prog.doRead n) :=
  .read fun _ _ _ e => .ret e (Set.empty_subset _)

theorem worldTransform {n : NodeId} (h : (n, .transform) ∈ C) :
    Two X ∅ (fun a b => a = b) C (Node.worldTransform n : KProg T _) (Node.worldTransform n) :=
  (joint n).bind fun _ _ _ _ _ q => .ret (q.2.1 h).symm (Set.empty_subset _)

theorem worldVelocity {n : NodeId} (h : (n, .velocity) ∈ C) :
    Two X ∅ (fun a b => a = b) C (Node.worldVelocity n : KProg T _) (Node.worldVelocity n) :=
  (joint n).bind fun _ _ _ _ _ q => .ret (q.2.2 h).symm (Set.empty_subset _)

theorem parentWorldTransform {n : NodeId}
    (h : ∀ w, X.par n (some w) → X.up w true → (w, CacheKind.transform) ∈ C) :
    Two X ∅ (fun a b => a = b) C (Node.parentWorldTransform n : KProg T _) (Node.parentWorldTransform n) := by
  refine (parent n).bind fun D a b cd _ ⟨e, q⟩ => ?_
  subst e
  cases a with
  | none => exact .ret rfl (Set.empty_subset _)
  | some w => exact worldTransform (cd (h w (q w rfl).1 (q w rfl).2))

theorem parentWorldVelocity {n : NodeId}
    (h : ∀ w, X.par n (some w) → X.up w true → (w, CacheKind.velocity) ∈ C) :
    Two X ∅ (fun a b => a = b) C (Node.parentWorldVelocity n : KProg T _) (Node.parentWorldVelocity n) := by
  refine (parent n).bind fun D a b cd _ ⟨e, q⟩ => ?_
  subst e
  cases a with
  | none => exact .ret rfl (Set.empty_subset _)
  | some w => exact worldVelocity (cd (h w (q w rfl).1 (q w rfl).2))

/-- storing the same value in both memories -/
theorem store {n : NodeId} (lt : n < X.bound) (k : CacheKind) {F : Joint T → Joint T}
    (hF : match k with
      | .transform => ∃ t, F = fun j => j.setWorldTransform t
      | .velocity => ∃ v, F = fun j => j.setWorldVelocity v) :
    Two X {(n, k)} (fun a b => a = b) C (poke n fun s : NodeImpl T => { s with joint := F s.joint })
      (poke n fun s : NodeImpl T => { s with joint := F s.joint }) := by
  refine .lock <| .write (C ∪ {(n, k)}) Set.subset_union_left ?_ ?_ <| .unlock (.ret rfl Set.subset_union_right)
  · rintro x (hx | rfl)
    · exact .inl hx
    · exact .inr ⟨rfl, lt⟩
  · intro D s s' cd pr e
    refine ⟨pr, ?_⟩
    obtain ⟨wt, wv, rfl⟩ := e.node
    cases k with
    | transform =>
      obtain ⟨t, rfl⟩ := hF
      refine ⟨⟨some t, wv, rfl⟩, fun _ => rfl, fun x => ?_⟩
      rcases x with x | x | x
      · exact e.velocity x
      · exact e.velocity (cd x)
      · cases x
    | velocity =>
      obtain ⟨t, rfl⟩ := hF
      refine ⟨⟨wt, some t, rfl⟩, fun x => ?_, fun _ => rfl⟩
      rcases x with x | x | x
      · exact e.transform x
      · exact e.transform (cd x)
      · cases x

theorem same {p : KProg T α} (h : Same X p) : Two X ∅ (fun a b => a = b) C p p := h C

/-- continue after a program with equal answers -/
theorem next {G G' : Slots} {R : β → β → Prop} {p : KProg T α} (h : Two X G (fun a b => a = b) C p p)
    {f : α → KProg T β} (hf : ∀ D a, C ⊆ D → G ⊆ D → Two X G' R D (f a) (f a)) : Two X G' R C (p >>= f) (p >>= f) :=
  h.bind fun D a _ cd gd e => e ▸ hf D a cd gd

theorem next' {G G' : Slots} {R : β → β → Prop} {p q : KProg T α} (h : Two X G (fun a b => a = b) C p q)
    {f g : α → KProg T β} (hf : ∀ D a, C ⊆ D → Two X G' R D (f a) (g a)) : Two X G' R C (p >>= f) (q >>= g) :=
  h.bind fun D a _ cd _ e => e ▸ hf D a cd

/-- what was known before is known after -/
theorem keep {G : Slots} {Q : α → α → Prop} {p q : KProg T α} (h : Two X ∅ Q C p q) (g : G ⊆ C) : Two X G Q C p q := by
  induction h with
  | ret q _ => exact .ret q g
  | lock _ ih => exact .lock (ih g)
  | unlock _ ih => exact .unlock (ih g)
  | read _ ih => exact .read fun s s' a b => ih s s' a b g
  | write C' sub only h _ ih => exact .write C' sub only h (ih (g.trans sub))
  | upgrade _ ih => exact .upgrade fun b hb => ih b hb g
  | alloc hp e _ ih => exact .alloc hp e fun m hm => ih m hm g
  | panic m => exact .panic m
  | diverge => exact .diverge

theorem updateTransform {n : NodeId} (lt : n < X.bound)
    (h : ∀ w, X.par n (some w) → X.up w true → (w, CacheKind.transform) ∈ C) :
    Two X {(n, .transform)} (fun a b => a = b) C (Chain.updateTransform n : KProg T _) (Chain.updateTransform n) := by
  refine (parentWorldTransform h).next fun D o cd _ => (same (Same.expect o _)).next fun E t de _ => ?_
  refine (joint n).bind fun E1 j j' ee _ q => ?_
  obtain ⟨wt, wv, rfl⟩ := q.1
  exact (store (F := fun x => x.setWorldTransform (t.mul j.localTransform)) lt .transform ⟨_, rfl⟩).next
    fun F _ ef g => .ret rfl g

theorem updateTransforms_aux (pre ns : List NodeId) (l : Listed X C {.transform} (pre ++ ns))
    (hp : ∀ x ∈ pre, (x, CacheKind.transform) ∈ C) :
    Two X (transformsOf ns) (fun a b => a = b) C (mapList ns Chain.updateTransform : KProg T _)
      (mapList ns Chain.updateTransform) := by
  induction ns generalizing pre C with
  | nil => exact .ret rfl fun x hx => by cases hx.1
  | cons n ns ih =>
    obtain ⟨lt, hw⟩ := l pre n ns rfl
    refine (updateTransform lt fun w p u => ?_).next fun D t cd g => ?_
    · rcases hw w p u with x | x
      · exact hp w x
      · exact x _ rfl
    · have gn : (n, CacheKind.transform) ∈ D := g rfl
      refine (ih (C := D) (pre ++ [n]) (by simpa using l.mono cd) ?_).next fun E ts de g' => .ret rfl ?_
      · intro x hx
        rcases List.mem_append.1 hx with hx | hx
        · exact cd (hp x hx)
        · rw [List.mem_singleton.1 hx]; exact gn
      · rintro ⟨x, c⟩ ⟨hx, rfl⟩
        rcases List.mem_cons.1 hx with rfl | hx
        · exact de gn
        · exact g' ⟨hx, rfl⟩

theorem updateTransforms {c : Chain} (l : Listed X C {.transform} c.nodes) :
    Two X (transformsOf c.nodes) (fun a b => a = b) C (c.updateTransforms : KProg T _) c.updateTransforms :=
  updateTransforms_aux [] _ l (by simp)

theorem updateVelocity {n : NodeId} (lt : n < X.bound) (hn : (n, CacheKind.transform) ∈ C)
    (h : ∀ w, X.par n (some w) → X.up w true → ∀ k, (w, k) ∈ C) :
    Two X {(n, .velocity)} (fun a b => a = b) C (Chain.updateVelocity n : KProg T _) (Chain.updateVelocity n) := by
  refine (parentWorldTransform fun w p u => h w p u _).next fun C1 o c1 _ =>
    (same (Same.expect o _)).next fun C2 t c2 _ => ?_
  refine (parentWorldVelocity fun w p u => c2 (c1 (h w p u _))).next fun C3 o c3 _ =>
    (same (Same.expect o _)).next fun C4 v c4 _ => ?_
  have hn4 : (n, CacheKind.transform) ∈ C4 := c4 (c3 (c2 (c1 hn)))
  refine (same (Same.doLock n)).next fun C4' _ c4' _ => (reads n).bind fun C4'' s s' c4'' _ e => ?_
  replace hn4 := c4'' (c4' hn4)
  obtain ⟨wt, wv, rfl⟩ := e.node
  refine Two.next (G := ∅) ?_ fun C5 vel c5 _ => (same (Same.doUnlock n)).next fun C6 _ c6 _ =>
    (store (F := fun x => x.setWorldVelocity vel) lt .velocity ⟨_, rfl⟩).next fun F _ ef g => .ret rfl g
  cases s.joint.jointType with
  | fixed => exact .ret rfl (Set.empty_subset _)
  | rotational axis =>
    refine (same (Same.parent n)).next fun C5 o c5 _ => (same (Same.expect o _)).next fun C6 p c6 _ => ?_
    refine (joint p).bind fun C7 j j' c7 _ q => ?_
    obtain ⟨wt, wv, rfl⟩ := q.1
    refine (worldTransform (c7 (c6 (c5 hn4)))).next fun C8 o c8 _ => (same (Same.expect o _)).next fun C9 w c9 _ => ?_
    refine (joint n).bind fun C10 j j' c10 _ q => ?_
    obtain ⟨wt, wv, rfl⟩ := q.1
    exact (same (Same.expect _ _)).next fun C11 w c11 _ => .ret rfl (Set.empty_subset _)
  | linear axis =>
    refine (worldTransform hn4).next fun C8 o c8 _ => (same (Same.expect o _)).next fun C9 w c9 _ => ?_
    refine (joint n).bind fun C10 j j' c10 _ q => ?_
    obtain ⟨wt, wv, rfl⟩ := q.1
    exact (same (Same.expect _ _)).next fun C11 w c11 _ => .ret rfl (Set.empty_subset _)

theorem updateVelocities_aux (pre ns : List NodeId) (l : Listed X C Set.univ (pre ++ ns))
    (hp : ∀ x ∈ pre, (x, CacheKind.velocity) ∈ C) (ht : transformsOf (pre ++ ns) ⊆ C) :
    Two X (cachesOf ns) (fun a b => a = b) C (mapList ns Chain.updateVelocity : KProg T _)
      (mapList ns Chain.updateVelocity) := by
  induction ns generalizing pre C with
  | nil => exact .ret rfl fun x hx => by cases hx
  | cons n ns ih =>
    obtain ⟨lt, hw⟩ := l pre n ns rfl
    refine (updateVelocity lt (ht ⟨by simp, rfl⟩) fun w p u k => ?_).next fun D t cd g => ?_
    · rcases hw w p u with x | x
      · cases k
        · exact ht ⟨by simp [x], rfl⟩
        · exact hp w x
      · exact x _ trivial
    · have gn : (n, CacheKind.velocity) ∈ D := g rfl
      refine (ih (C := D) (pre ++ [n]) (by simpa using l.mono cd) ?_ ?_).next fun E ts de g' => .ret rfl ?_
      · intro x hx
        rcases List.mem_append.1 hx with hx | hx
        · exact cd (hp x hx)
        · rw [List.mem_singleton.1 hx]; exact gn
      · simpa using ht.trans cd
      · rintro ⟨x, c⟩ hx
        rcases List.mem_cons.1 hx with hx | hx
        · simp only at hx
          subst hx
          cases c
          · exact de (cd (ht ⟨by simp, rfl⟩))
          · exact de gn
        · exact g' hx

theorem updateVelocities {c : Chain} (l : Listed X C Set.univ c.nodes) :
    Two X (cachesOf c.nodes) (fun a b => a = b) C (c.updateVelocities : KProg T _) c.updateVelocities :=
  (updateTransforms (l.kinds (Set.subset_univ _))).next fun _ _ cd g =>
    updateVelocities_aux [] _ (l.mono cd) (by simp) g

theorem updateLinkTransforms_aux (pre ns : List NodeId) (l : Listed X C {.transform} (pre ++ ns))
    (ht : transformsOf (pre ++ ns) ⊆ C) :
    Two X ∅ (fun a b => a = b) C (forEach ns Chain.updateLinkTransform : KProg T _)
      (forEach ns Chain.updateLinkTransform) := by
  induction ns generalizing pre C with
  | nil => exact .ret rfl (Set.empty_subset _)
  | cons n ns ih =>
    obtain ⟨lt, hw⟩ := l pre n ns rfl
    refine Two.next (G := ∅) ?_ fun D _ cd _ => ih (pre ++ [n]) (by simpa using l.mono cd) (by simpa using ht.trans cd)
    refine (parentWorldTransform fun w p u => ?_).next fun D o cd _ => (same (Same.expect o _)).next fun E t de _ => ?_
    · rcases hw w p u with x | x
      · exact ht ⟨by simp [x], rfl⟩
      · exact x _ rfl
    · exact Same.poke (f := fun s => { s with link := s.link.map (Chain.placeLink t) })
        (Same.neutral_other fun _ _ => rfl) (fun _ h => h) E

theorem updateLinkTransforms {c : Chain} (l : Listed X C {.transform} c.nodes) :
    Two X (transformsOf c.nodes) (fun a b => a = b) C (c.updateLinkTransforms : KProg T _) c.updateLinkTransforms :=
  (updateTransforms l).next fun D _ cd g => by
    have := updateLinkTransforms_aux (T := T) [] _ (l.mono cd) g
    exact this.keep g

theorem comLoop (ns : List NodeId) (acc : ComAcc T) (ht : transformsOf ns ⊆ C) :
    Two X ∅ (fun a b => a = b) C (comLoop ns acc) (comLoop ns acc) := by
  induction ns generalizing acc C with
  | nil => exact .ret rfl (Set.empty_subset _)
  | cons n ns ih =>
    have tail : transformsOf ns ⊆ C := fun x hx => ht ⟨List.mem_cons_of_mem _ hx.1, hx.2⟩
    refine (worldTransform (ht ⟨by simp, rfl⟩)).next fun D o cd _ => ?_
    cases o with
    | none => exact ih _ (tail.trans cd)
    | some t =>
      refine (same (Same.peekBind (fun _ _ _ => rfl) fun _ => Same.pure _)).next fun E l de _ => ?_
      exact ih _ (tail.trans (cd.trans de))

theorem centerOfMass {c : Chain} (l : Listed X C {.transform} c.nodes) :
    Two X (transformsOf c.nodes) (fun a b => a = b) C (centerOfMass c : KProg T _) (centerOfMass c) :=
  (updateTransforms l).next fun _ _ _ g => (comLoop _ _ g).next fun _ _ de _ => .ret rfl (g.trans de)

theorem jacobian {c : Chain} (l : Listed X C {.transform} c.nodes) (sub : ∀ n ∈ c.movableNodes, n ∈ c.nodes) :
    Two X (transformsOf c.nodes) (fun a b => a = b) C (jacobian c : KProg T _) (jacobian c) := by
  refine (same (Same.endTransform c)).next fun D t cd _ => (updateTransforms (l.mono cd)).next fun E _ de g => ?_
  refine Two.keep ?_ g
  have cols : ∀ (ms : List NodeId) (F : Slots), (∀ n ∈ ms, (n, CacheKind.transform) ∈ F) →
      Two X ∅ (fun a b => a = b) F (mapList ms fun n => do
        doLock n
        let s ← doRead n
        let ti ← expect s.joint.worldTransform "called `Option::unwrap()` on a `None` value"
        let col ← ofExcept (jacobianColumn t.trans s.joint ti)
        doUnlock n
        return col : KProg T _) (mapList ms fun n => do
        doLock n
        let s ← doRead n
        let ti ← expect s.joint.worldTransform "called `Option::unwrap()` on a `None` value"
        let col ← ofExcept (jacobianColumn t.trans s.joint ti)
        doUnlock n
        return col) := by
    intro ms
    induction ms with
    | nil => exact fun F _ => .ret rfl (Set.empty_subset _)
    | cons n ms ih =>
      intro F hF
      refine Two.next (G := ∅) ?_ fun F1 _ f1 _ => (ih F1 fun m hm => f1 (hF m (by simp [hm]))).next
        fun F2 _ f2 _ => .ret rfl (Set.empty_subset _)
      refine (same (Same.doLock n)).next fun F1 _ f1 _ => (reads n).bind fun F2 s s' f2 _ e => ?_
      have ew := e.transform (f1 (hF n (by simp)))
      obtain ⟨wt, wv, rfl⟩ := e.node
      have ew : wt = s.joint.worldTransformCache := ew
      subst ew
      exact (same (Same.expect _ _)).next fun _ _ _ _ => (same (Same.ofExcept _)).next fun _ _ _ _ =>
        (same (Same.doUnlock n)).next fun _ _ _ _ => .ret rfl (Set.empty_subset _)
  exact cols _ E fun n hn => g ⟨sub n hn, rfl⟩

theorem solveOneLoop {s : IkSolver T} {arm : Chain} {target : Iso T} {ops : List Bool} {ign : List Nat}
    (l : Listed X C {.transform} arm.nodes) (sub : ∀ n ∈ arm.movableNodes, n ∈ arm.nodes) :
    Two X ∅ (fun a b => a = b) C (solveOneLoop s arm target ops ign) (solveOneLoop s arm target ops ign) := by
  refine (same (Same.jointPositions arm)).next fun C1 _ c1 _ => (same (Same.endTransform arm)).next fun C2 _ c2 _ =>
    (jacobian (l.mono (c1.trans c2)) sub).next fun C3 _ c3 _ => (same (Same.ofExcept _)).next fun C4 x c4 _ => ?_
  cases x with
  | error e => exact .ret rfl (Set.empty_subset _)
  | ok ps =>
    exact (same (Same.setJointPositionsClamped arm _)).next fun _ _ _ _ =>
      (same (Same.endTransform arm)).next fun _ _ _ _ => .ret rfl (Set.empty_subset _)

theorem tryLoop {s : IkSolver T} {arm : Chain} {target : Iso T} {ops : List Bool} {ign : List Nat}
    (l : Listed X C {.transform} arm.nodes) (sub : ∀ n ∈ arm.movableNodes, n ∈ arm.nodes)
    (orig : List T) (left : Nat) (last : Option (V3 T × V3 T)) :
    Two X ∅ (fun a b => a = b) C (tryLoop s arm target ops ign orig left last)
      (tryLoop s arm target ops ign orig left last) := by
  induction left generalizing last C with
  | zero =>
    unfold K.tryLoop
    refine (same (Same.setJointPositions arm orig)).next fun _ x _ _ => ?_
    cases x with
    | error e => exact .ret rfl (Set.empty_subset _)
    | ok v => exact (same (Same.expect _ _)).next fun _ _ _ _ => .ret rfl (Set.empty_subset _)
  | succ left ih =>
    unfold K.tryLoop
    refine (solveOneLoop l sub).next fun D x cd _ => ?_
    cases x with
    | error e => exact .ret rfl (Set.empty_subset _)
    | ok diff =>
      simp only
      split
      · exact (same (Same.jointPositions arm)).next fun _ _ _ _ =>
          (same (Same.setJointPositionsClamped arm _)).next fun _ _ _ _ => .ret rfl (Set.empty_subset _)
      · exact ih (l.mono cd) _

theorem solve {s : IkSolver T} {arm : Chain} {target : Iso T} {c : Constraints}
    (l : Listed X C {.transform} arm.nodes) (sub : ∀ n ∈ arm.movableNodes, n ∈ arm.nodes) :
    Two X ∅ (fun a b => a = b) C (solveWithConstraints s arm target c) (solveWithConstraints s arm target c) := by
  refine (same (Same.jointPositions arm)).next fun C1 _ c1 _ => Two.next (G := ∅) ?_ fun C2 x c2 _ => ?_
  · refine (same (Same.jointPositions arm)).next fun C2 _ c2 _ => ?_
    split
    · exact .panic _
    · simp only
      split
      · exact .ret rfl (Set.empty_subset _)
      · refine (same (Same.ignoredIndices arm _)).next fun C3 y c3 _ => ?_
        cases y with
        | error e => exact .ret rfl (Set.empty_subset _)
        | ok is => exact tryLoop (l.mono ((c1.trans c2).trans c3)) sub _ _ _
  · cases x with
    | ok v => exact .ret rfl (Set.empty_subset _)
    | error e =>
      refine (same (Same.setJointPositions arm _)).next fun _ y _ _ => ?_
      cases y <;> exact .ret rfl (Set.empty_subset _)

end Two

namespace Same

/-- copying a chain, when nothing is assumed about parents -/
theorem clone (free : ∀ n p, X.par n p) (fuel : Nat) (c : Chain) : Same X (c.clone fuel : KProg T _) := by
  have root : ∀ n (f : Bool → KProg T Chain), (∀ b, Same X (f b)) → Same X (Node.isRoot n >>= f) := fun n f h =>
    (peekBind (fun _ _ _ => rfl) fun _ => pure _).bind h
  unfold Chain.clone
  split
  · exact ret _
  · refine root _ _ fun b => ?_
    split
    · exact panic _
    · refine (mapList _ fun n => ?_).bind fun ns => (forEach _ fun p => ?_).bind fun _ => (expect _ _).bind fun r =>
        root _ _ fun b => ?_
      · intro C
        refine (doLock n C).next fun C1 _ _ _ => (Two.reads n).bind fun C2 s s' _ _ e => ?_
        refine Two.next' (G := ∅) (p := Node.new s.joint) (q := Node.new s'.joint) ?_ fun C3 m c3 => ?_
        · refine .alloc rfl ?_ fun m _ => ret m C2
          obtain ⟨wt, wv, ej⟩ := e.joint
          exact ⟨⟨wt, wv, by simp only [NodeImpl.fresh, ej]⟩, fun x => absurd x (Set.notMem_empty _),
            fun x => absurd x (Set.notMem_empty _)⟩
        · refine (doUnlock n _).next fun C4 _ _ _ => (doLock n C4).next fun C5 _ _ _ => ?_
          exact readBind (fun _ _ _ => rfl) (fun s => (poke (neutral_other fun _ _ => rfl) fun _ _ => free _ _).bind
            fun _ => (doUnlock n).bind fun _ => ret _) C5
      · refine (parent _).bind fun o => ?_
        have setParent : ∀ a b, Same X (Node.setParent a b : KProg T _) := fun a b =>
          (poke (neutral_other fun _ _ => rfl) fun _ _ => free _ _).bind fun _ =>
            poke (neutral_other fun _ _ => rfl) fun _ _ => free _ _
        have rest : Same X (do
            match ← Node.mimicParent p.1 with
            | some m =>
              let i ← Prog.expect (position m c.nodes) "called `Option::unwrap()` on a `None` value"
              let m' ← Prog.expect ns[i]? "index out of bounds"
              Prog.doLock p.1
              let s ← doRead p.1
              let mimic ← Prog.expect s.mimic "called `Option::unwrap()` on a `None` value"
              Node.setMimicParent p.2 m' mimic
              Prog.doUnlock p.1
            | none => Pure.pure () : KProg T Unit) := by
          refine bind ?_ fun o => ?_
          · unfold Node.mimicParent
            refine (doLock _).bind fun _ => readBind (fun s wt wv => rfl) fun s => ?_
            split <;> same
          · split
            · refine (expect _ _).bind fun _ => (expect _ _).bind fun _ => (doLock _).bind fun _ =>
                readBind (fun _ _ _ => rfl) fun s => (expect _ _).bind fun _ => bind ?_ fun _ => doUnlock _
              exact (poke (neutral_other fun _ _ => rfl) fun _ _ => free _ _).bind fun _ =>
                (poke (neutral_other fun _ _ => rfl) fun _ _ => free _ _).bind fun _ =>
                  poke (neutral_other fun _ _ => rfl) fun _ _ => free _ _
            · exact ret _
        cases o with
        | none => exact rest
        | some q => exact (expect _ _).bind fun _ => (expect _ _).bind fun _ => (setParent _ _).bind fun _ => rest
      · split
        · exact panic _
        · exact (descendants _ _).bind fun _ => fromNodes _

end Same
end K
