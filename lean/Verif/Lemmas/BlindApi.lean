import Verif.Lemmas.BlindCaches
/-!
# All calls of the API, and clients, look at known cached values only
-/

set_option linter.unusedSectionVars false

namespace K
open Prog
variable {T : Type} {α β γ δ ε : Type} {X : Ctx} {C D : Slots}

/-- `Call.Careful`, with what is known in `X` -/
def CarefulIn {β : Type} (X : Ctx) (C : Slots) : Call T β → Prop
  | .worldTransform n => (n, .transform) ∈ C
  | .worldVelocity n => (n, .velocity) ∈ C
  | .updateTransforms c => Listed X C {.transform} c.nodes
  | .updateLinkTransforms c => Listed X C {.transform} c.nodes
  | .centerOfMass c => Listed X C {.transform} c.nodes
  | .updateVelocities c => Listed X C Set.univ c.nodes
  | .jacobian c => Listed X C {.transform} c.nodes ∧ ∀ n ∈ c.movableNodes, n ∈ c.nodes
  | .solve _ c _ _ => Listed X C {.transform} c.nodes ∧ ∀ n ∈ c.movableNodes, n ∈ c.nodes
  | _ => True

/-- the tree in `h`, of which only nodes that are freed may change -/
def Ctx.frozen (h : KHeap T) : Ctx where
  par n p := n < h.next → p = (h.get n).parent
  up n b := n < h.next → h.dead n = true → b = false
  bound := h.next
  freshPar m hm lt := absurd lt (Nat.not_lt.2 hm)
  freshUp m hm lt := absurd lt (Nat.not_lt.2 hm)
  freed _ _ _ := rfl

/-- nothing is known -/
def Ctx.free (h : KHeap T) : Ctx where
  par _ _ := True
  up _ _ := True
  bound := h.next
  freshPar _ _ := trivial
  freshUp _ _ := trivial
  freed _ := trivial

theorem CachesKnown.listed {h : KHeap T} {K : Set CacheKind} {ns : List NodeId} (p : CachesKnown h C K ns) :
    Listed (.frozen h) C K ns := by
  intro pre n post e
  obtain ⟨lt, hw⟩ := p pre n post e
  refine ⟨lt, fun w hp hu => ?_⟩
  rcases hw w (hp lt).symm with ⟨l, d⟩ | x | x
  · cases hu l d
  · exact .inl x
  · exact .inr x

theorem Call.Careful.inCtx {h : KHeap T} {c : Call T β} (hc : c.Careful h C) : CarefulIn (.frozen h) C c := by
  cases c <;> first | exact hc | exact hc.listed | exact ⟨hc.1.listed, hc.2⟩ | trivial

theorem CachesKnown.mono {h : KHeap T} {K : Set CacheKind} {ns : List NodeId} (p : CachesKnown h C K ns) (cd : C ⊆ D) :
    CachesKnown h D K ns := fun pre n post e =>
  ⟨(p pre n post e).1, fun w hw => ((p pre n post e).2 w hw).imp_right (·.imp_right fun a k hk => cd (a k hk))⟩

theorem Call.Careful.mono {h : KHeap T} {c : Call T β} (hc : c.Careful h C) (cd : C ⊆ D) : c.Careful h D := by
  cases c <;> first | exact cd hc | exact CachesKnown.mono hc cd | exact ⟨CachesKnown.mono hc.1 cd, hc.2⟩ | trivial

theorem Call.Careful.of_moves {h : KHeap T} {c : Call T β} (m : c.MovesNodes) : CarefulIn X C c := by
  cases c <;> first | trivial | exact m.elim

variable [Scalar T]

theorem two_call (c : Call T β) (hc : CarefulIn X C c) (hm : c.MovesNodes → ∀ n p, X.par n p) :
    Two X c.gain (SameAnswer c) C c.prog c.prog := by
  have other : ∀ {n : NodeId} {f : NodeImpl T → NodeImpl T},
      (∀ (s : NodeImpl T) j, f { s with joint := j } = { f s with joint := j }) →
      (∀ s, X.par n s.parent → X.par n (f s).parent) → Same X (poke n f) := fun h p => Same.poke (Same.neutral_other h) p
  cases c with
  | newNode j => exact Same.doAlloc rfl C
  | setParent n p =>
    have : Same X (Node.setParent n p : KProg T _) :=
      Same.bind (other (fun _ _ => rfl) fun _ _ => hm trivial _ _) fun _ => other (fun _ _ => rfl) fun _ h => h
    exact this C
  | removeParent n p =>
    have : Same X (Node.removeParent n p : KProg T _) :=
      Same.bind (other (fun _ _ => rfl) fun _ _ => hm trivial _ _) fun _ => other (fun _ _ => rfl) fun _ h => h
    exact this C
  | setMimicParent n p m =>
    have : Same X (Node.setMimicParent n p m) :=
      Same.bind (other (fun _ _ => rfl) fun _ h => h) fun _ => Same.bind (other (fun _ _ => rfl) fun _ h => h)
        fun _ => other (fun _ _ => rfl) fun _ h => h
    exact this C
  | setLink n l =>
    have : Same X (Node.setLink n l) := other (fun _ _ => rfl) fun _ h => h
    exact this C
  | setOrigin n t => exact Same.poke (Same.neutral_setOrigin t) (fun _ h => h) C
  | setJointPosition n x => exact Same.setJointPosition n x C
  | setJointPositionClamped n x => exact Same.poke (Same.neutral_clamped x) (fun _ h => h) C
  | setJointPositionUnchecked n x => exact Same.poke (Same.neutral_unchecked x) (fun _ h => h) C
  | joint n => exact (Two.joint n).imp (Set.Subset.refl _) fun _ _ h => h.1
  | jointPosition n => exact Same.peekBind (fun _ _ _ => rfl) (fun _ => .pure _) C
  | parent n => exact Same.parent n C
  | mimicParent n =>
    have : Same X (Node.mimicParent n : KProg T _) := by
      unfold Node.mimicParent
      refine (Same.doLock n).bind fun _ => Same.readBind (fun s wt wv => rfl) fun s => ?_
      split <;> same
    exact this C
  | children n => exact Same.peekBind (fun _ _ _ => rfl) (fun _ => .pure _) C
  | link n => exact Same.peekBind (fun _ _ _ => rfl) (fun _ => .pure _) C
  | isRoot n => exact Same.peekBind (fun _ _ _ => rfl) (fun _ => .pure _) C
  | isEnd n => exact Same.peekBind (fun _ _ _ => rfl) (fun _ => .pure _) C
  | origin n => exact Same.jointBind (fun _ _ _ => rfl) (fun _ => .pure _) C
  | worldTransform n => exact Two.worldTransform hc
  | worldVelocity n => exact Two.worldVelocity hc
  | iterAncestors fuel n => exact Same.ancestors _ _ C
  | iterDescendants fuel n => exact Same.descendants _ _ C
  | fromNodes ns => exact Same.fromNodes ns C
  | fromRoot fuel n => exact (Same.descendants _ _).bind (fun _ => .fromNodes _) C
  | fromEnd fuel n => exact (Same.ancestors _ _).bind (fun _ => .fromNodes _) C
  | fromEndToRoot fuel e r => exact (Same.ancestorsUntil _ _ _).bind (fun _ => .fromNodes _) C
  | chainSetOrigin c t =>
    have : Same X (c.setOrigin t) := by
      unfold Chain.setOrigin
      split
      · exact .panic _
      · exact Same.poke (Same.neutral_setOrigin t) fun _ h => h
    exact this C
  | chainOrigin c =>
    have : Same X (c.origin : KProg T _) := by
      unfold Chain.origin
      split
      · exact .panic _
      · exact Same.jointBind (fun _ _ _ => rfl) fun _ => .pure _
    exact this C
  | iterJoints c =>
    show Two X ∅ (List.Forall₂ JointEq) C (mapList c.movableNodes Node.joint) (mapList c.movableNodes Node.joint)
    generalize c.movableNodes = ms
    clear hc hm
    induction ms generalizing C with
    | nil => exact .ret .nil (Set.empty_subset _)
    | cons n ms ih =>
      exact (Two.joint n).bind fun D j j' cd _ e => ih.bind fun E js js' de _ es => .ret (.cons e.1 es) (Set.empty_subset _)
  | iterLinks c =>
    have : Same X (c.iterLinks : KProg T _) := by
      refine (Same.mapList _ fun n => ?_).bind fun _ => .pure _
      refine (Same.peekBind (fun _ _ _ => rfl) fun _ => .pure _).bind fun _ => ?_
      split
      · exact (Same.doLock n).bind fun _ => Same.readBind (fun _ _ _ => rfl) fun _ => (Same.expect _ _).bind fun _ =>
          (Same.doUnlock n).bind fun _ => .pure _
      · exact .pure _
    exact this C
  | find c name =>
    exact Same.findFirst _ (fun n => Same.jointBind (fun _ _ _ => rfl) fun _ => .pure _) C
  | jointPositions c => exact Same.jointPositions c C
  | setJointPositions c xs => exact Same.setJointPositions c xs C
  | setJointPositionsClamped c xs => exact Same.setJointPositionsClamped c xs C
  | setJointPositionsUnchecked c xs =>
    exact Same.forEach _ (fun _ => Same.poke (Same.neutral_unchecked _) fun _ h => h) C
  | updateTransforms c => exact Two.updateTransforms hc
  | updateVelocities c => exact Two.updateVelocities hc
  | updateLinkTransforms c => exact Two.updateLinkTransforms hc
  | cloneChain fuel c => exact Same.clone (hm trivial) fuel c C
  | tryNew c =>
    have : Same X (c.tryNew : KProg T _) := by
      unfold Chain.tryNew
      split
      · exact .panic _
      · exact (Same.findFirst _ fun n => (Same.peekBind (fun _ _ _ => rfl) fun _ => .pure _).bind fun _ => .pure _).bind
          fun _ => .pure _
    exact this C
  | endTransform c => exact Same.endTransform c C
  | display fuel c =>
    have : Same X (c.display fuel : KProg T _) := by
      unfold Chain.display
      split
      · exact .panic _
      · exact (Same.display _ _ _ _).bind fun _ => .pure _
    exact this C
  | jacobian c => exact Two.jacobian hc.1 hc.2
  | centerOfMass c => exact Two.centerOfMass hc
  | solve s c target cs => exact Two.solve hc.1 hc.2

theorem Client.Steady.mono {h : KHeap T} (p : Client T α) (hp : p.Steady h C) (cd : C ⊆ D) : p.Steady h D := by
  induction p generalizing C D with
  | done a => trivial
  | call c k ih =>
    exact ⟨hp.1.mono cd, hp.2.1, hp.2.2.1, fun r => ih r (hp.2.2.2 r) (Set.union_subset_union_left _ cd)⟩

theorem two_client {h : KHeap T} (p : Client T α) (hp : p.Steady h C) :
    Two (.frozen h) ∅ (fun a b => a = b) C p.prog p.prog := by
  induction p generalizing C with
  | done a => exact .ret rfl (Set.empty_subset _)
  | call c k ih =>
    refine (two_call c hp.1.inCtx fun m => absurd m hp.2.1).bind fun D a b cd gd e => ?_
    rw [hp.2.2.1 a b e]
    exact ih a ((hp.2.2.2 a).mono _ (Set.union_subset cd gd))

end K
