import Verif.Spec.LastWrite
import Verif.Lemmas.SetPos
import Verif.Lemmas.SetAll
import Verif.Lemmas.Ik
/-!
# Which values a program writes to a node

`Traces h0 k P p L`: run among other position setters on a robot that is `h0` but for positions, program `p`
writes to node `k` exactly the values `L` but for a rest, and returns a value and a rest in `P`.
-/

namespace K
open Prog

variable {T α β γ : Type} [Scalar T]

/-- as `s0`, or moved -/
def Shifted (s0 s : NodeImpl T) : Prop := s = s0 ∨ ∃ x, s = s0.movedTo x

/-- see the file comment -/
def Traces (h0 : KHeap T) (k : NodeId) (P : α → List T → Prop) : KProg T α → List T → Prop
  | .ret a, L => P a L
  | .lock _ p, L => Traces h0 k P p L
  | .unlock _ p, L => Traces h0 k P p L
  | .read n p, L => ∀ s, Shifted (h0.get n) s → Traces h0 k P (p s) L
  | .write n f p, L =>
    ((∀ s, Shifted (h0.get n) s → f s = s) ∧ Traces h0 k P p L) ∨
    ∃ x, (∀ s, Shifted (h0.get n) s → f s = s.movedTo x) ∧
      ((n ≠ k ∧ Traces h0 k P p L) ∨ (n = k ∧ ∃ L', L = x :: L' ∧ Traces h0 k P p L'))
  | .upgrade _ _, _ => False
  | .alloc _ _, _ => False
  | .panic _, _ => False
  | .diverge, _ => False

variable {h0 : KHeap T} {k : NodeId}

theorem Traces.mono {P Q : α → List T → Prop} {p : KProg T α} {L : List T} (h : Traces h0 k P p L)
    (i : ∀ a L, P a L → Q a L) : Traces h0 k Q p L := by
  induction p generalizing L with
  | ret a => exact i _ _ h
  | lock n p ih => exact ih h
  | unlock n p ih => exact ih h
  | read n p ih => exact fun s hs => ih s (h s hs)
  | write n f p ih =>
    rcases h with ⟨a, b⟩ | ⟨x, a, ⟨ne, b⟩ | ⟨e, L', eL, b⟩⟩
    · exact .inl ⟨a, ih b⟩
    · exact .inr ⟨x, a, .inl ⟨ne, ih b⟩⟩
    · exact .inr ⟨x, a, .inr ⟨e, L', eL, ih b⟩⟩
  | upgrade n p ih => exact h
  | alloc s p ih => exact h
  | panic m => exact h
  | diverge => exact h

theorem Traces.bind {P : α → List T → Prop} {Q : β → List T → Prop} {p : KProg T α} {f : α → KProg T β}
    {L : List T} (h : Traces h0 k P p L) (hf : ∀ a L, P a L → Traces h0 k Q (f a) L) :
    Traces h0 k Q (p >>= f) L := by
  show Traces h0 k Q (p.bind f) L
  induction p generalizing L with
  | ret a => exact hf _ _ h
  | lock n p ih => exact ih h
  | unlock n p ih => exact ih h
  | read n p ih => exact fun s hs => ih s (h s hs)
  | write n f p ih =>
    rcases h with ⟨a, b⟩ | ⟨x, a, ⟨ne, b⟩ | ⟨e, L', eL, b⟩⟩
    · exact .inl ⟨a, ih b⟩
    · exact .inr ⟨x, a, .inl ⟨ne, ih b⟩⟩
    · exact .inr ⟨x, a, .inr ⟨e, L', eL, ih b⟩⟩
  | upgrade n p ih => exact h
  | alloc s p ih => exact h
  | panic m => exact h
  | diverge => exact h

/-- `p` writes `ws` and returns `a` -/
def Does (h0 : KHeap T) (k : NodeId) (p : KProg T α) (a : α) (ws : List (NodeId × T)) : Prop :=
  ∀ (P : α → List T → Prop) (L : List T), P a L → Traces h0 k P p (valuesTo k ws ++ L)

theorem valuesTo_append (ws vs : List (NodeId × T)) :
    valuesTo k (ws ++ vs) = valuesTo k ws ++ valuesTo k vs := by simp [valuesTo]

theorem Does.ret (a : α) : Does h0 k (.ret a) a [] := fun _ _ h => h
theorem Does.pure (a : α) : Does h0 k (Pure.pure a) a [] := fun _ _ h => h

theorem Does.bind {p : KProg T α} {f : α → KProg T β} {a : α} {b : β} {ws vs : List (NodeId × T)}
    (h : Does h0 k p a ws) (hf : Does h0 k (f a) b vs) : Does h0 k (p >>= f) b (ws ++ vs) := fun P L hP => by
  rw [valuesTo_append, List.append_assoc]
  exact (h (fun c M => c = a ∧ M = valuesTo k vs ++ L) _ ⟨rfl, rfl⟩).bind fun c M ⟨e1, e2⟩ => by
    subst e1 e2; exact hf P L hP

theorem Does.lock (n : NodeId) : Does h0 k (doLock n) () [] := fun _ _ h => h
theorem Does.unlock (n : NodeId) : Does h0 k (doUnlock n) () [] := fun _ _ h => h

theorem Does.write_put {n : NodeId} {f : NodeImpl T → NodeImpl T} {x : T}
    (hf : ∀ s, Shifted (h0.get n) s → f s = s.movedTo x) : Does h0 k (doWrite n f) () [(n, x)] := fun P L hP => by
  refine .inr ⟨x, hf, ?_⟩
  by_cases e : n = k
  · exact .inr ⟨e, L, by simp [valuesTo, e], hP⟩
  · exact .inl ⟨e, by simp [valuesTo, e]; exact hP⟩

theorem Does.write_id {n : NodeId} {f : NodeImpl T → NodeImpl T}
    (hf : ∀ s, Shifted (h0.get n) s → f s = s) : Does h0 k (doWrite n f) () [] := fun _ _ hP =>
  .inl ⟨hf, hP⟩

/-- a read: the answer is `Shifted`, what follows must not depend on more -/
theorem Does.read {n : NodeId} {f : NodeImpl T → KProg T β} {b : β} {ws : List (NodeId × T)}
    (hf : ∀ s, Shifted (h0.get n) s → Does h0 k (f s) b ws) : Does h0 k (doRead n >>= f) b ws :=
  fun P L hP s hs => hf s hs P L hP

theorem Does.poke_put {n : NodeId} {f : NodeImpl T → NodeImpl T} {x : T}
    (hf : ∀ s, Shifted (h0.get n) s → f s = s.movedTo x) : Does h0 k (poke n f) () [(n, x)] := by
  have := ((Does.lock (h0 := h0) (k := k) n).bind (f := fun _ => doWrite n f >>= fun _ => doUnlock n)
    ((Does.write_put hf).bind (f := fun _ => doUnlock n) (Does.unlock n)))
  exact this

theorem Does.poke_id {n : NodeId} {f : NodeImpl T → NodeImpl T}
    (hf : ∀ s, Shifted (h0.get n) s → f s = s) : Does h0 k (poke n f) () [] := by
  have := ((Does.lock (h0 := h0) (k := k) n).bind (f := fun _ => doWrite n f >>= fun _ => doUnlock n)
    ((Does.write_id hf).bind (f := fun _ => doUnlock n) (Does.unlock n)))
  exact this

theorem Does.skip {p : KProg T α} {f : α → KProg T β} {a : α} {b : β} {vs : List (NodeId × T)}
    (h : Does h0 k p a []) (hf : Does h0 k (f a) b vs) : Does h0 k (p >>= f) b vs := h.bind hf

theorem Does.last {p : KProg T α} {f : α → KProg T β} {a : α} {b : β} {ws : List (NodeId × T)}
    (h : Does h0 k p a ws) (hf : Does h0 k (f a) b []) : Does h0 k (p >>= f) b ws := by
  have := h.bind hf
  rwa [List.append_nil] at this

theorem Does.exit (n : NodeId) (a : α) : Does h0 k (do doUnlock n; return a) a [] :=
  (Does.unlock n).skip (Does.pure a)

/-! ## the setters -/

theorem set_refusal {n : NodeId} {s : NodeImpl T} (hs : Shifted (h0.get n) s) (x : T) :
    (∀ e, refusal h0 n x = some e →
      { s with joint := (s.joint.setJointPosition x).1 } = s ∧ (s.joint.setJointPosition x).2 = .error e) ∧
    (refusal h0 n x = none →
      { s with joint := (s.joint.setJointPosition x).1 } = s.movedTo x ∧
        (s.joint.setJointPosition x).2 = .ok ()) := by
  have et : s.joint.jointType = (h0.get n).joint.jointType := by rcases hs with rfl | ⟨x, rfl⟩ <;> rfl
  have el : s.joint.limits = (h0.get n).joint.limits := by rcases hs with rfl | ⟨x, rfl⟩ <;> rfl
  have en : s.joint.name = (h0.get n).joint.name := by rcases hs with rfl | ⟨x, rfl⟩ <;> rfl
  unfold refusal
  rw [← et, ← el, ← en]
  cases t : s.joint.jointType with
  | fixed => simp [Joint.setJointPosition, Joint.isMovable, t]
  | rotational a =>
    cases l : s.joint.limits with
    | none => simp [Joint.setJointPosition, Joint.isMovable, NodeImpl.movedTo, t, l]
    | some r =>
      cases v1 : Scalar.le x r.max <;> cases v2 : Scalar.le r.min x <;>
        simp [Joint.setJointPosition, Joint.isMovable, NodeImpl.movedTo, Range.isValid, t, l, v1, v2]
  | linear a =>
    cases l : s.joint.limits with
    | none => simp [Joint.setJointPosition, Joint.isMovable, NodeImpl.movedTo, t, l]
    | some r =>
      cases v1 : Scalar.le x r.max <;> cases v2 : Scalar.le r.min x <;>
        simp [Joint.setJointPosition, Joint.isMovable, NodeImpl.movedTo, Range.isValid, t, l, v1, v2]

theorem does_setMimicChild (n c : NodeId) (x : T) (m : Mimic T) (hm : (h0.get c).mimic = some m) :
    Does h0 k (Node.setMimicChild n x c)
      (match refusal h0 c (x * m.multiplier + m.origin) with | some e => .error e | none => .ok ())
      (match refusal h0 c (x * m.multiplier + m.origin) with
        | some _ => [] | none => [(c, x * m.multiplier + m.origin)]) := by
  unfold Node.setMimicChild
  refine (Does.lock c).skip (Does.read fun s hs => ?_)
  have em : s.mimic = some m := by rw [← hm]; rcases hs with rfl | ⟨x, rfl⟩ <;> rfl
  rw [em]
  obtain ⟨a, b⟩ := set_refusal hs (x * m.multiplier + m.origin)
  cases hr : refusal h0 c (x * m.multiplier + m.origin) with
  | some e =>
    have w : Does h0 k (doWrite c fun s => { s with joint := (s.joint.setJointPosition (m.mimicPosition x)).1 })
        () [] := Does.write_id fun s' hs' => ((set_refusal hs' _).1 e hr).1
    have z : (s.joint.setJointPosition (m.mimicPosition x)).2 = .error e := (a e hr).2
    simp only [z]
    exact w.skip (Does.exit _ _)
  | none =>
    have w : Does h0 k (doWrite c fun s => { s with joint := (s.joint.setJointPosition (m.mimicPosition x)).1 })
        () [(c, x * m.multiplier + m.origin)] := Does.write_put fun s' hs' => ((set_refusal hs' _).2 hr).1
    have z : (s.joint.setJointPosition (m.mimicPosition x)).2 = .ok () := (b hr).2
    simp only [z]
    exact w.last (Does.exit _ _)

theorem does_follow (n : NodeId) (x : T) (cs : List NodeId) (hm : ∀ c ∈ cs, (h0.get c).mimic.isSome) :
    Does h0 k (tryEach cs (Node.setMimicChild n x)) (follow h0 x cs).2 (follow h0 x cs).1 := by
  induction cs with
  | nil => exact .ret _
  | cons c cs ih =>
    obtain ⟨m, em⟩ := Option.isSome_iff_exists.1 (hm c (by simp))
    have one := does_setMimicChild (k := k) n c x m em
    have ih := ih fun d hd => hm d (by simp [hd])
    unfold tryEach follow
    simp only [em]
    cases hr : refusal h0 c (x * m.multiplier + m.origin) with
    | some e =>
      simp only [hr] at one
      exact one.skip (Does.pure _)
    | none =>
      simp only [hr] at one
      exact one.bind ih

theorem does_set (wf : MimicWF h0) (n : NodeId) (x : T) :
    Does h0 k (Node.setJointPosition n x) (setOne h0 n x).2 (setOne h0 n x).1 := by
  unfold Node.setJointPosition
  refine (Does.lock n).skip (Does.read fun s hs => ?_)
  have ep : s.mimicParent = (h0.get n).mimicParent := by rcases hs with rfl | ⟨x, rfl⟩ <;> rfl
  have ec : s.mimicChildren = (h0.get n).mimicChildren := by rcases hs with rfl | ⟨x, rfl⟩ <;> rfl
  unfold setOne
  rw [ep]
  cases hp : (h0.get n).mimicParent.isSome with
  | true => exact Does.exit _ _
  | false =>
    simp only [Bool.false_eq_true, if_false]
    obtain ⟨a, b⟩ := set_refusal hs x
    cases hr : refusal h0 n x with
    | some e =>
      have w : Does h0 k (doWrite n fun s => { s with joint := (s.joint.setJointPosition x).1 }) () [] :=
        Does.write_id fun s' hs' => ((set_refusal hs' _).1 e hr).1
      simp only [(a e hr).2]
      exact w.skip (Does.exit _ _)
    | none =>
      have w : Does h0 k (doWrite n fun s => { s with joint := (s.joint.setJointPosition x).1 }) () [(n, x)] :=
        Does.write_put fun s' hs' => ((set_refusal hs' _).2 hr).1
      simp only [(b hr).2]
      rw [ec]
      have fo := does_follow (k := k) n x (h0.get n).mimicChildren fun c hc => (wf n c hc).2
      exact w.bind (fo.last (Does.exit _ _))

theorem does_clamp (n : NodeId) (x : T) :
    Does h0 k (Node.setJointPositionClamped n x) () (clampOne h0 n x) := by
  unfold Node.setJointPositionClamped clampOne
  have et : ∀ s, Shifted (h0.get n) s → s.joint.jointType = (h0.get n).joint.jointType := fun s hs => by
    rcases hs with rfl | ⟨x, rfl⟩ <;> rfl
  have el : ∀ s, Shifted (h0.get n) s → s.joint.limits = (h0.get n).joint.limits := fun s hs => by
    rcases hs with rfl | ⟨x, rfl⟩ <;> rfl
  cases t : (h0.get n).joint.jointType with
  | fixed =>
    refine Does.poke_id fun s hs => ?_
    have := et s hs
    rw [t] at this
    simp [Joint.setJointPositionClamped, Joint.isMovable, this]
  | rotational a =>
    cases l : (h0.get n).joint.limits with
    | none =>
      refine Does.poke_put fun s hs => ?_
      have e1 := et s hs
      have e2 := el s hs
      rw [t] at e1; rw [l] at e2
      simp [Joint.setJointPositionClamped, Joint.isMovable, e1, e2, NodeImpl.movedTo,
        Joint.setJointPositionUnchecked]
    | some r =>
      refine Does.poke_put fun s hs => ?_
      have e1 := et s hs
      have e2 := el s hs
      rw [t] at e1; rw [l] at e2
      simp [Joint.setJointPositionClamped, Joint.isMovable, e1, e2, NodeImpl.movedTo,
        Joint.setJointPositionUnchecked, Range.clamp]
  | linear a =>
    cases l : (h0.get n).joint.limits with
    | none =>
      refine Does.poke_put fun s hs => ?_
      have e1 := et s hs
      have e2 := el s hs
      rw [t] at e1; rw [l] at e2
      simp [Joint.setJointPositionClamped, Joint.isMovable, e1, e2, NodeImpl.movedTo,
        Joint.setJointPositionUnchecked]
    | some r =>
      refine Does.poke_put fun s hs => ?_
      have e1 := et s hs
      have e2 := el s hs
      rw [t] at e1; rw [l] at e2
      simp [Joint.setJointPositionClamped, Joint.isMovable, e1, e2, NodeImpl.movedTo,
        Joint.setJointPositionUnchecked, Range.clamp]

theorem does_put (n : NodeId) (x : T) : Does h0 k (Node.setJointPositionUnchecked n x) () [(n, x)] :=
  Does.poke_put fun _ _ => rfl

theorem does_each (wf : MimicWF h0) (ps : List (NodeId × T)) :
    Does h0 k (tryEach ps fun jp => Node.setJointPosition jp.1 jp.2) (setEach h0 ps).2 (setEach h0 ps).1 := by
  induction ps with
  | nil => exact .ret _
  | cons p ps ih =>
    obtain ⟨n, x⟩ := p
    have one := does_set (k := k) wf n x
    unfold tryEach setEach
    cases hr : (setOne h0 n x).2 with
    | error e =>
      rw [hr] at one
      exact one.last (Does.pure _)
    | ok v =>
      rw [hr] at one
      exact one.bind ih

theorem does_forEach {f : γ → KProg T Unit} {w : γ → List (NodeId × T)} (xs : List γ)
    (hf : ∀ x, Does h0 k (f x) () (w x)) : Does h0 k (forEach xs f) () (xs.flatMap w) := by
  induction xs with
  | nil => exact .ret _
  | cons x xs ih => exact (hf x).bind ih

theorem does_call (wf : MimicWF h0) (a : Setting T) : Does h0 k a.call (a.answer h0) (a.writes h0) := by
  cases a with
  | set n x => exact does_set wf n x
  | clamp n x => exact (does_clamp n x).last (Does.pure _)
  | put n x => exact (does_put n x).last (Does.pure _)
  | setAll c xs =>
    simp only [Setting.call, Setting.answer, Setting.writes, Chain.setJointPositions]
    by_cases e : xs.length = c.dof
    · simp only [e, ne_eq, not_true, if_true, if_false]; exact does_each wf _
    · simp only [e, ne_eq, not_false_iff, if_true, if_false]; exact .ret _
  | clampAll c xs =>
    have := does_forEach (h0 := h0) (k := k) (f := fun jp : NodeId × T => Node.setJointPositionClamped jp.1 jp.2)
      (w := fun p => clampOne h0 p.1 p.2) (c.movableNodes.zip xs) fun p => does_clamp p.1 p.2
    exact this.last (Does.pure _)
  | putAll c xs =>
    have := does_forEach (h0 := h0) (k := k) (f := fun jp : NodeId × T => Node.setJointPositionUnchecked jp.1 jp.2)
      (w := fun p => [(p.1, p.2)]) (c.movableNodes.zip xs) fun p => does_put p.1 p.2
    have e : (c.movableNodes.zip xs).flatMap (fun p => [(p.1, p.2)]) = c.movableNodes.zip xs := by simp
    rw [e] at this
    exact this.last (Does.pure _)

theorem does_settings (wf : MimicWF h0) (as : List (Setting T)) :
    Does h0 k (settings as) (as.map (Setting.answer h0)) (as.flatMap (Setting.writes h0)) := by
  induction as with
  | nil => exact .ret _
  | cons a as ih =>
    exact (does_call wf a).bind (ih.last (Does.pure _))

/-! ## threads -/

/-- the state of node `k` is that of the last write in `done` -/
def Latest (h0 : KHeap T) (k : NodeId) (h : KHeap T) (done : List (List T)) : Prop :=
  (h.get k = h0.get k ∧ ∀ d ∈ done, d = []) ∨ ∃ d ∈ done, ∃ x, d.getLast? = some x ∧ h.get k = (h0.get k).movedTo x

/-- thread by thread: what it has written, what it is going to write -/
structure Track (h0 : KHeap T) (k : NodeId) (Ps : List (α → List T → Prop)) (Ws : List (List T))
    (c : Config (NodeImpl T) α) : Prop where
  like : ∀ n, Shifted (h0.get n) (c.heap.get n)
  len : c.threads.length = Ws.length
  lenP : Ps.length = Ws.length
  track : ∃ done : List (List T), done.length = Ws.length ∧ Latest h0 k c.heap done ∧
    ∀ (i : Nat) p P W d, c.threads[i]? = some p → Ps[i]? = some P → Ws[i]? = some W → done[i]? = some d →
      ∃ L, W = d ++ L ∧ Traces h0 k P p L

theorem movedTo_movedTo (s : NodeImpl T) (x y : T) : (s.movedTo x).movedTo y = s.movedTo y := rfl

theorem Shifted.movedTo {s0 s : NodeImpl T} (h : Shifted s0 s) (x : T) : Shifted s0 (s.movedTo x) := by
  rcases h with rfl | ⟨y, rfl⟩
  · exact .inr ⟨x, rfl⟩
  · exact .inr ⟨x, rfl⟩

theorem Shifted.moved_eq {s0 s : NodeImpl T} (h : Shifted s0 s) (x : T) : s.movedTo x = s0.movedTo x := by
  rcases h with rfl | ⟨y, rfl⟩ <;> rfl

/-- a step that does not touch the list of what is done -/
theorem Track.quiet {Ps : List (α → List T → Prop)} {Ws : List (List T)} {c : Config (NodeImpl T) α}
    (t : Track h0 k Ps Ws c) {i : Nat} {p p' : KProg T α} {h' : KHeap T} (hi : c.threads[i]? = some p)
    (hl : ∀ n, Shifted (h0.get n) (h'.get n)) (hk : h'.get k = c.heap.get k)
    (tr : ∀ P L, Traces h0 k P p L → Traces h0 k P p' L) : Track h0 k Ps Ws ⟨h', c.threads.set i p'⟩ := by
  obtain ⟨done, ld, la, f⟩ := t.track
  refine ⟨hl, by simp [t.len], t.lenP, done, ld, ?_, ?_⟩
  · unfold Latest at la ⊢; rw [hk]; exact la
  · intro j q P W d hj hP hW hd
    simp only [List.getElem?_set] at hj
    by_cases e : i = j
    · subst e
      rw [if_pos rfl] at hj
      split at hj
      · cases hj
        obtain ⟨L, eL, x⟩ := f i p P W d hi hP hW hd
        exact ⟨L, eL, tr P L x⟩
      · cases hj
    · rw [if_neg e] at hj
      exact f j q P W d hj hP hW hd

theorem Track.step {Ps : List (α → List T → Prop)} {Ws : List (List T)} {c d : Config (NodeImpl T) α}
    (t : Track h0 k Ps Ws c) (s : Step c d) : Track h0 k Ps Ws d := by
  cases s with
  | mk i p p' h' hi hs =>
    have lt : i < Ws.length := t.len ▸ (List.getElem?_eq_some_iff.1 hi).1
    obtain ⟨W, hW⟩ : ∃ W, Ws[i]? = some W := ⟨_, List.getElem?_eq_getElem lt⟩
    obtain ⟨P, hP⟩ : ∃ P, Ps[i]? = some P := ⟨_, List.getElem?_eq_getElem (t.lenP ▸ lt)⟩
    cases p with
    | ret a => simp [step1] at hs
    | panic m => simp [step1] at hs
    | diverge =>
      obtain ⟨done, ld, la, f⟩ := t.track
      obtain ⟨L, -, tr⟩ := f i _ P W _ hi hP hW (List.getElem?_eq_getElem (ld.symm ▸ lt))
      exact absurd tr id
    | lock n q =>
      simp only [step1] at hs
      split at hs
      · cases hs
      · cases hs
        exact t.quiet hi (fun m => t.like m) rfl fun _ _ x => x
    | unlock n q =>
      simp only [step1] at hs
      cases hs
      exact t.quiet hi (fun m => t.like m) rfl fun _ _ x => x
    | read n q =>
      simp only [step1] at hs
      cases hs
      exact t.quiet hi t.like rfl fun _ _ x => x _ (t.like n)
    | upgrade n q =>
      obtain ⟨done, ld, la, f⟩ := t.track
      obtain ⟨L, -, tr⟩ := f i _ P W _ hi hP hW (List.getElem?_eq_getElem (ld.symm ▸ lt))
      exact absurd tr id
    | alloc n q =>
      obtain ⟨done, ld, la, f⟩ := t.track
      obtain ⟨L, -, tr⟩ := f i _ P W _ hi hP hW (List.getElem?_eq_getElem (ld.symm ▸ lt))
      exact absurd tr id
    | write n g q =>
      simp only [step1] at hs
      cases hs
      obtain ⟨done, ld, la, f⟩ := t.track
      have ltd : i < done.length := ld.symm ▸ lt
      obtain ⟨L, eL, tr⟩ := f i _ P W _ hi hP hW (List.getElem?_eq_getElem ltd)
      have same : ∀ {h' : KHeap T}, (∀ n, Shifted (h0.get n) (h'.get n)) → h'.get k = c.heap.get k →
          Traces h0 k P p' L → Track h0 k Ps Ws ⟨h', c.threads.set i p'⟩ := by
        intro h' hl hk tq
        refine ⟨hl, by simp [t.len], t.lenP, done, ld, ?_, ?_⟩
        · unfold Latest at la ⊢; rw [hk]; exact la
        · intro j r P' W' d hj hP' hW' hd
          simp only [List.getElem?_set] at hj
          by_cases e : i = j
          · subst e
            rw [if_pos rfl] at hj
            split at hj
            · cases hj
              rw [hP] at hP'; cases hP'
              rw [hW] at hW'; cases hW'
              rw [List.getElem?_eq_getElem ltd] at hd; cases hd
              exact ⟨L, eL, tq⟩
            · cases hj
          · rw [if_neg e] at hj
            exact f j r P' W' d hj hP' hW' hd
      rcases tr with ⟨a, b⟩ | ⟨x, a, ⟨ne, b⟩ | ⟨e, L', eL', b⟩⟩
      · have hg : ∀ m, (c.heap.modify n g).get m = c.heap.get m := fun m => by
          by_cases e : m = n
          · subst e; rw [Heap.get_modify, if_pos rfl, a _ (t.like m)]
          · exact Heap.get_modify_of_ne _ _ e
        exact same (fun m => by rw [hg]; exact t.like m) (hg k) b
      · refine same (fun m => ?_) (Heap.get_modify_of_ne _ _ (Ne.symm ne)) b
        by_cases e : m = n
        · subst e; rw [Heap.get_modify, if_pos rfl, a _ (t.like m)]; exact (t.like m).movedTo x
        · rw [Heap.get_modify_of_ne _ _ e]; exact t.like m
      · subst e
        refine ⟨fun m => ?_, by simp [t.len], t.lenP, done.set i (done[i] ++ [x]), by simp [ld], ?_, ?_⟩
        · show Shifted _ ((c.heap.modify n g).get m)
          by_cases e : m = n
          · subst e; rw [Heap.get_modify, if_pos rfl, a _ (t.like m)]; exact (t.like m).movedTo x
          · rw [Heap.get_modify_of_ne _ _ e]; exact t.like m
        · refine .inr ⟨done[i] ++ [x], List.mem_set (by simpa using ltd) _, x, by simp, ?_⟩
          show (c.heap.modify n g).get n = _
          rw [Heap.get_modify, if_pos rfl, a _ (t.like n), (t.like n).moved_eq]
        · intro j r P' W' d hj hP' hW' hd
          simp only [List.getElem?_set] at hj hd
          by_cases e : i = j
          · subst e
            rw [if_pos rfl] at hj hd
            split at hj
            · cases hj
              rw [hP] at hP'; cases hP'
              rw [hW] at hW'; cases hW'
              rw [if_pos ltd] at hd; cases hd
              exact ⟨L', by rw [eL, eL']; simp, b⟩
            · cases hj
          · rw [if_neg e] at hj hd
            exact f j r P' W' d hj hP' hW' hd

theorem Track.steps {Ps : List (α → List T → Prop)} {Ws : List (List T)} {c d : Config (NodeImpl T) α}
    (t : Track h0 k Ps Ws c) (s : Steps c d) : Track h0 k Ps Ws d := by
  induction s with
  | refl => exact t
  | tail _ s ih => exact ih.step s

/-- the start -/
theorem track_start (h : KHeap T) (wf : MimicWF h) (k : NodeId) (ass : List (List (Setting T))) :
    Track h k (ass.map fun as => fun r L => r = as.map (Setting.answer h) ∧ L = [])
      (ass.map fun as => valuesTo k (as.flatMap (Setting.writes h))) ⟨h, ass.map settings⟩ := by
  refine ⟨fun n => .inl rfl, by simp, by simp, ass.map fun _ => [], by simp, .inl ⟨rfl, by simp⟩, ?_⟩
  intro i p P W d hp hP hW hd
  simp only [List.getElem?_map, Option.map_eq_some_iff] at hp hP hW hd
  obtain ⟨as, e1, rfl⟩ := hp
  obtain ⟨as', e2, rfl⟩ := hP
  obtain ⟨as'', e3, rfl⟩ := hW
  obtain ⟨_, _, rfl⟩ := hd
  rw [e1] at e2 e3
  cases e2; cases e3
  refine ⟨_, rfl, ?_⟩
  have := does_settings (k := k) wf as (fun r L => r = as.map (Setting.answer h) ∧ L = []) [] ⟨rfl, rfl⟩
  rwa [List.append_nil] at this

/-! ## one thread alone -/

theorem Traces.run {P : α → List T → Prop} {p : KProg T α} {L : List T} {h h' : KHeap T} {a : α} {o : Option T}
    (t : Traces h0 k P p L) (hl : ∀ n, Shifted (h0.get n) (h.get n)) (hk : h.get k = (h0.get k).after o)
    (e : K.run p h = .ok a h') :
    ∃ d L', L = d ++ L' ∧ P a L' ∧ h'.get k = (h0.get k).after (d.getLast?.or o) := by
  induction p generalizing L h o with
  | ret b => cases e; exact ⟨[], L, rfl, t, by simpa using hk⟩
  | lock n p ih =>
    simp only [K.run] at e
    split at e
    · cases e
    · exact ih (h := h.setHeld n true) t hl hk e
  | unlock n p ih => exact ih (h := h.setHeld n false) t hl hk e
  | read n p ih => exact ih _ (t _ (hl n)) hl hk e
  | write n f p ih =>
    have hm : ∀ x, (∀ s, Shifted (h0.get n) s → f s = s.movedTo x) →
        ∀ m, Shifted (h0.get m) ((h.modify n f).get m) := by
      intro x a m
      by_cases e : m = n
      · subst e; rw [Heap.get_modify, if_pos rfl, a _ (hl m)]; exact (hl m).movedTo x
      · rw [Heap.get_modify_of_ne _ _ e]; exact hl m
    rcases t with ⟨a, b⟩ | ⟨x, a, ⟨ne, b⟩ | ⟨en, L', eL', b⟩⟩
    · have hg : ∀ m, (h.modify n f).get m = h.get m := fun m => by
        by_cases e : m = n
        · subst e; rw [Heap.get_modify, if_pos rfl, a _ (hl m)]
        · exact Heap.get_modify_of_ne _ _ e
      exact ih (h := h.modify n f) b (fun m => by rw [hg]; exact hl m) (by rw [hg]; exact hk) e
    · refine ih (h := h.modify n f) b (hm x a) ?_ e
      rw [Heap.get_modify_of_ne _ _ (Ne.symm ne)]; exact hk
    · subst en
      obtain ⟨d, M, eM, hP, hg⟩ := ih (h := h.modify n f) (o := some x) b (hm x a) (by
        rw [Heap.get_modify, if_pos rfl, a _ (hl n), (hl n).moved_eq]; rfl) e
      refine ⟨x :: d, M, by rw [eL', eM]; rfl, hP, ?_⟩
      rw [hg]
      cases d with
      | nil => simp
      | cons y ys =>
        obtain ⟨z, hz⟩ : ∃ z, (y :: ys).getLast? = some z := ⟨_, List.getLast?_eq_some_getLast (by simp)⟩
        rw [List.getLast?_cons_cons, hz]; rfl
  | upgrade n p ih => exact t.elim
  | alloc s p ih => exact t.elim
  | panic m => exact t.elim
  | diverge => exact t.elim

/-- every call returns, and changes positions and caches only -/
theorem call_returns (a : Setting T) (h : KHeap T) (u : h.Unlocked) (wf : MimicWF h) :
    ∃ r h', K.run a.call h = .ok r h' ∧ SameBut h h' := by
  cases a with
  | set n x => exact ⟨_, _, run_setJointPosition n x h u wf, sameBut_setPos n x h⟩
  | clamp n x =>
    refine ⟨.ok (), _, ?_, sameBut_modify h n (fun j => j.setJointPositionClamped x)
      (setJointPositionClamped_shape _ _)⟩
    simp [Setting.call, run_Node_setJointPositionClamped n x h u]
  | put n x =>
    refine ⟨.ok (), _, ?_, sameBut_modify h n (fun j => j.setJointPositionUnchecked x) ⟨_, _, _, rfl⟩⟩
    simp [Setting.call, run_Node_setJointPositionUnchecked n x h u]
  | setAll c xs =>
    by_cases e : xs.length = c.dof
    · exact ⟨_, _, run_setJointPositions c xs h u wf e, sameBut_setAll _ _⟩
    · refine ⟨.error (.sizeMismatch xs.length c.dof), h, ?_, .refl h⟩
      simp [Setting.call, Chain.setJointPositions, e]
  | clampAll c xs =>
    refine ⟨.ok (), _, ?_, (moved_clampAll (c.movableNodes.zip xs) c.movableNodes zip_fst_mem h).sameBut⟩
    simp [Setting.call, run_setJointPositionsClamped c xs h u]
  | putAll c xs =>
    have e : K.run (c.setJointPositionsUnchecked xs) h = .ok () ((c.movableNodes.zip xs).foldl
        (fun h p => h.modify p.1 fun s => { s with joint := s.joint.setJointPositionUnchecked p.2 }) h) :=
      run_forEach_modify u fun p _ h' u' => run_Node_setJointPositionUnchecked p.1 p.2 h' u'
    refine ⟨.ok (), _, by simp [Setting.call, e]; rfl, ?_⟩
    generalize c.movableNodes.zip xs = ps
    clear e u wf
    induction ps generalizing h with
    | nil => exact .refl h
    | cons p ps ih =>
      exact (sameBut_modify h p.1 (fun j => j.setJointPositionUnchecked p.2) ⟨_, _, _, rfl⟩).trans (ih _)

theorem settings_return (as : List (Setting T)) (h : KHeap T) (u : h.Unlocked) (wf : MimicWF h) :
    ∃ r h', K.run (settings as) h = .ok r h' ∧ SameBut h h' := by
  induction as generalizing h with
  | nil => exact ⟨_, _, rfl, .refl h⟩
  | cons a as ih =>
    obtain ⟨r, h1, e1, s1⟩ := call_returns a h u wf
    obtain ⟨rs, h2, e2, s2⟩ := ih h1 (s1.unlocked u) (s1.mimicWF wf)
    exact ⟨r :: rs, h2, by simp [settings, e1, e2], s1.trans s2⟩

end K
