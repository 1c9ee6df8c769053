import Verif.Lemmas.Run
import Verif.Model.Chain
/-!
# The sequential effect of `set_joint_position`
-/

set_option linter.unusedSectionVars false

namespace K
open Prog
variable {T : Type} [Scalar T]

/-- a registered mimic child knows that it mimics (`set_mimic_parent` writes all three fields) -/
def MimicWF (h : KHeap T) : Prop :=
  ∀ m c, c ∈ (h.get m).mimicChildren → (h.get c).mimicParent.isSome ∧ (h.get c).mimic.isSome

/-- effect of the checked setter of one joint on the heap -/
def Heap.setJoint (h : KHeap T) (n : NodeId) (x : T) : KHeap T :=
  h.modify n fun s => { s with joint := (s.joint.setJointPosition x).1 }

/-- effect of the loop over the mimic children -/
def mimicLoop (x : T) : List NodeId → KHeap T → Except (KError T) Unit × KHeap T
  | [], h => (.ok (), h)
  | c :: cs, h =>
    match (h.get c).mimic with
    | none => (.ok (), h)
    | some m =>
      match ((h.get c).joint.setJointPosition (m.mimicPosition x)).2 with
      | .error e => (.error e, h.setJoint c (m.mimicPosition x))
      | .ok () => mimicLoop x cs (h.setJoint c (m.mimicPosition x))

/-- effect of `Node::set_joint_position` -/
def setPos (n : NodeId) (x : T) (h : KHeap T) : Except (KError T) Unit × KHeap T :=
  if (h.get n).mimicParent.isSome then (.ok (), h)
  else
    match ((h.get n).joint.setJointPosition x).2 with
    | .error e => (.error e, h)
    | .ok () => mimicLoop x (h.get n).mimicChildren (h.setJoint n x)

theorem setJoint_get_mimic (h : KHeap T) (n k : NodeId) (x : T) :
    ((h.setJoint n x).get k).mimic = (h.get k).mimic := by
  simp only [Heap.setJoint, Heap.get_modify]; split <;> rfl
theorem setJoint_get_mimicParent (h : KHeap T) (n k : NodeId) (x : T) :
    ((h.setJoint n x).get k).mimicParent = (h.get k).mimicParent := by
  simp only [Heap.setJoint, Heap.get_modify]; split <;> rfl
theorem setJoint_get_mimicChildren (h : KHeap T) (n k : NodeId) (x : T) :
    ((h.setJoint n x).get k).mimicChildren = (h.get k).mimicChildren := by
  simp only [Heap.setJoint, Heap.get_modify]; split <;> rfl
theorem setJoint_get_of_ne (h : KHeap T) {n k : NodeId} (x : T) (e : k ≠ n) :
    (h.setJoint n x).get k = h.get k := Heap.get_modify_of_ne _ _ e
theorem setJoint_get_joint (h : KHeap T) (n : NodeId) (x : T) :
    ((h.setJoint n x).get n).joint = ((h.get n).joint.setJointPosition x).1 := by
  simp [Heap.setJoint]

theorem setJointPosition_error_same (j : Joint T) (x : T) (e : KError T)
    (h : (j.setJointPosition x).2 = .error e) : (j.setJointPosition x).1 = j := by
  revert h; unfold Joint.setJointPosition
  split
  · simp
  · split
    · split <;> simp
    · simp

theorem setJoint_error (h : KHeap T) (n : NodeId) (x : T) (e : KError T)
    (he : ((h.get n).joint.setJointPosition x).2 = .error e) : h.setJoint n x = h := by
  refine Heap.modify_eq_self _ _ _ ?_
  rw [setJointPosition_error_same _ _ _ he]

theorem run_mimicLoop (n : NodeId) (x : T) (cs : List NodeId) (h : KHeap T) (u : h.Unlocked)
    (nc : n ∉ cs) (wf : ∀ c ∈ cs, (h.get c).mimic.isSome) :
    run (tryEach cs (Node.setMimicChild n x)) (h.setHeld n true) =
      .ok (mimicLoop x cs h).1 ((mimicLoop x cs h).2.setHeld n true) := by
  induction cs generalizing h with
  | nil => rfl
  | cons c cs ih =>
    have cn : c ≠ n := fun e => nc (by simp [e])
    have hc : (h.setHeld n true).held c = false := by simp [Heap.held_setHeld, cn, u c]
    obtain ⟨m, hm⟩ := Option.isSome_iff_exists.1 (wf c (by simp))
    have step : run (Node.setMimicChild n x c) (h.setHeld n true) =
        .ok ((h.get c).joint.setJointPosition (m.mimicPosition x)).2
          ((h.setJoint c (m.mimicPosition x)).setHeld n true) := by
      simp only [Node.setMimicChild, run_bind, run_doLock_free _ _ hc, Res.bind_ok, run_doRead,
        Heap.get_setHeld, hm, run_doWrite, run_doUnlock, run_pure]
      rw [Heap.setHeld_modify_setHeld _ _ _ _ hc]; rfl
    simp only [run_tryEach_cons, step, Res.bind_ok, mimicLoop, hm]
    cases ((h.get c).joint.setJointPosition (m.mimicPosition x)).2 with
    | error e => rfl
    | ok u' =>
      refine ih (h.setJoint c (m.mimicPosition x)) (u.modify _ _) (fun e => nc (by simp [e])) ?_
      intro d hd; rw [setJoint_get_mimic]; exact wf d (by simp [hd])

theorem mimicLoop_held (x : T) (cs : List NodeId) (h : KHeap T) :
    (mimicLoop x cs h).2.held = h.held := by
  induction cs generalizing h with
  | nil => rfl
  | cons c cs ih =>
    simp only [mimicLoop]; split
    · rfl
    · split
      · rfl
      · rw [ih]; rfl

/-- In an unlocked heap, sequential execution of `set_joint_position` is `setPos`: it always returns.
-/
theorem run_setJointPosition (n : NodeId) (x : T) (h : KHeap T) (u : h.Unlocked) (wf : MimicWF h) :
    run (Node.setJointPosition n x) h = .ok (setPos n x h).1 (setPos n x h).2 := by
  simp only [Node.setJointPosition, run_bind, run_doLock_free _ _ (u n), Res.bind_ok, run_doRead,
    Heap.get_setHeld, setPos]
  cases hmb : (h.get n).mimicParent.isSome with
  | true => simp [Heap.setHeld_setHeld_false _ _ (u n)]
  | false =>
    have hm : ¬ (h.get n).mimicParent.isSome = true := by simp [hmb]
    simp only [Bool.false_eq_true, if_false]
    cases e : ((h.get n).joint.setJointPosition x).2 with
    | error e' =>
      simp only [run_bind, run_doWrite, Res.bind_ok, run_doUnlock, run_pure]
      rw [Heap.setHeld_modify_setHeld _ _ _ _ (u n)]
      have := setJoint_error h n x e' e
      unfold Heap.setJoint at this; rw [this]
    | ok v =>
      simp only [run_bind, run_doWrite, Res.bind_ok]
      have nc : n ∉ (h.get n).mimicChildren := fun hin => hm (wf n n hin).1
      have wf' : ∀ c ∈ (h.get n).mimicChildren, ((h.setJoint n x).get c).mimic.isSome :=
        fun c hc => by rw [setJoint_get_mimic]; exact (wf n c hc).2
      have l := run_mimicLoop n x (h.get n).mimicChildren (h.setJoint n x) (u.modify _ _) nc wf'
      have e2 : (h.setHeld n true).modify n
          (fun s => { s with joint := (s.joint.setJointPosition x).1 }) =
          (h.setJoint n x).setHeld n true := rfl
      rw [e2, l]
      simp only [Res.bind_ok, run_doUnlock, run_pure]
      rw [Heap.setHeld_setHeld_false]
      rw [mimicLoop_held]; exact u n

/-! ## frame facts -/

/-- `h'` differs from `h` at most in joint positions and caches -/
structure SameBut (h h' : KHeap T) : Prop where
  next : h'.next = h.next
  dead : h'.dead = h.dead
  held : h'.held = h.held
  node : ∀ k, ∃ p wt wv, h'.get k = { h.get k with joint := { (h.get k).joint with
    position := p, worldTransformCache := wt, worldVelocityCache := wv } }

theorem SameBut.refl (h : KHeap T) : SameBut h h := ⟨rfl, rfl, rfl, fun _ => ⟨_, _, _, rfl⟩⟩
theorem SameBut.trans {h1 h2 h3 : KHeap T} (a : SameBut h1 h2) (b : SameBut h2 h3) :
    SameBut h1 h3 := by
  refine ⟨b.next.trans a.next, b.dead.trans a.dead, b.held.trans a.held, fun k => ?_⟩
  obtain ⟨p, t, v, e⟩ := a.node k
  obtain ⟨p', t', v', e'⟩ := b.node k
  exact ⟨p', t', v', by rw [e', e]⟩

theorem setJointPosition_shape (j : Joint T) (x : T) : ∃ p wt wv, (j.setJointPosition x).1 =
    { j with position := p, worldTransformCache := wt, worldVelocityCache := wv } := by
  unfold Joint.setJointPosition; split
  · exact ⟨_, _, _, rfl⟩
  · split
    · split
      · exact ⟨_, _, _, rfl⟩
      · exact ⟨_, _, _, rfl⟩
    · exact ⟨_, _, _, rfl⟩

theorem sameBut_modify (h : KHeap T) (n : NodeId) (f : Joint T → Joint T)
    (hf : ∃ p wt wv, f (h.get n).joint = { (h.get n).joint with
      position := p, worldTransformCache := wt, worldVelocityCache := wv }) :
    SameBut h (h.modify n fun s => { s with joint := f s.joint }) := by
  refine ⟨rfl, rfl, rfl, fun k => ?_⟩
  rw [Heap.get_modify]; split
  · subst_vars; obtain ⟨p, t, v, e⟩ := hf; exact ⟨p, t, v, by rw [e]⟩
  · exact ⟨_, _, _, rfl⟩

theorem sameBut_setJoint (h : KHeap T) (n : NodeId) (x : T) : SameBut h (h.setJoint n x) :=
  sameBut_modify h n (fun j => (j.setJointPosition x).1) (setJointPosition_shape _ _)

theorem sameBut_mimicLoop (x : T) (cs : List NodeId) (h : KHeap T) :
    SameBut h (mimicLoop x cs h).2 := by
  induction cs generalizing h with
  | nil => exact SameBut.refl _
  | cons c cs ih =>
    simp only [mimicLoop]; split
    · exact SameBut.refl _
    · split
      · exact sameBut_setJoint _ _ _
      · exact (sameBut_setJoint _ _ _).trans (ih _)

theorem sameBut_setPos (n : NodeId) (x : T) (h : KHeap T) : SameBut h (setPos n x h).2 := by
  unfold setPos; split
  · exact SameBut.refl _
  · split
    · exact SameBut.refl _
    · exact (sameBut_setJoint _ _ _).trans (sameBut_mimicLoop _ _ _)

namespace SameBut
variable {h h' : KHeap T} (s : SameBut h h')
include s
theorem unlocked (u : h.Unlocked) : h'.Unlocked := fun n => by rw [s.held]; exact u n
theorem mimic (k : NodeId) : (h'.get k).mimic = (h.get k).mimic := by
  obtain ⟨p, t, v, e⟩ := s.node k; rw [e]
theorem mimicParent (k : NodeId) : (h'.get k).mimicParent = (h.get k).mimicParent := by
  obtain ⟨p, t, v, e⟩ := s.node k; rw [e]
theorem mimicChildren (k : NodeId) : (h'.get k).mimicChildren = (h.get k).mimicChildren := by
  obtain ⟨p, t, v, e⟩ := s.node k; rw [e]
theorem parent (k : NodeId) : (h'.get k).parent = (h.get k).parent := by
  obtain ⟨p, t, v, e⟩ := s.node k; rw [e]
theorem children (k : NodeId) : (h'.get k).children = (h.get k).children := by
  obtain ⟨p, t, v, e⟩ := s.node k; rw [e]
theorem link (k : NodeId) : (h'.get k).link = (h.get k).link := by
  obtain ⟨p, t, v, e⟩ := s.node k; rw [e]
theorem jointType (k : NodeId) : (h'.get k).joint.jointType = (h.get k).joint.jointType := by
  obtain ⟨p, t, v, e⟩ := s.node k; rw [e]
theorem limits (k : NodeId) : (h'.get k).joint.limits = (h.get k).joint.limits := by
  obtain ⟨p, t, v, e⟩ := s.node k; rw [e]
theorem name (k : NodeId) : (h'.get k).joint.name = (h.get k).joint.name := by
  obtain ⟨p, t, v, e⟩ := s.node k; rw [e]
theorem origin (k : NodeId) : (h'.get k).joint.origin = (h.get k).joint.origin := by
  obtain ⟨p, t, v, e⟩ := s.node k; rw [e]
theorem upgradeOpt (o : Option NodeId) : K.upgradeOpt h' o = K.upgradeOpt h o := by
  unfold K.upgradeOpt; rw [s.dead]
theorem mimicWF (wf : MimicWF h) : MimicWF h' := by
  intro m c hc
  rw [s.mimicChildren] at hc; rw [s.mimicParent, s.mimic]; exact wf m c hc
end SameBut

theorem mimicLoop_frame (x : T) (cs : List NodeId) (h : KHeap T) (k : NodeId) (hk : k ∉ cs) :
    (mimicLoop x cs h).2.get k = h.get k := by
  induction cs generalizing h with
  | nil => rfl
  | cons c cs ih =>
    have kc : k ≠ c := fun e => hk (by simp [e])
    have hk' : k ∉ cs := fun e => hk (by simp [e])
    simp only [mimicLoop]; split
    · rfl
    · split
      · exact setJoint_get_of_ne _ _ kc
      · rw [ih _ hk']; exact setJoint_get_of_ne _ _ kc

theorem setPos_frame (n : NodeId) (x : T) (h : KHeap T) (k : NodeId) (hn : k ≠ n)
    (hk : k ∉ (h.get n).mimicChildren) : (setPos n x h).2.get k = h.get k := by
  unfold setPos; split
  · rfl
  · split
    · rfl
    · rw [mimicLoop_frame _ _ _ _ hk]; exact setJoint_get_of_ne _ _ hn

theorem mimicLoop_next (x : T) (cs : List NodeId) (h : KHeap T) :
    (mimicLoop x cs h).2.next = h.next := (sameBut_mimicLoop x cs h).next

end K
