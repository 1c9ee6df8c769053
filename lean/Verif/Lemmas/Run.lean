import Verif.Model.Node
/-!
# Equations for `run`
-/

set_option linter.unusedSectionVars false

namespace K

namespace Res
variable {S α β : Type}
/-- sequencing of outcomes -/
def bind : Res S α → (α → Heap S → Res S β) → Res S β
  | .ok a h, f => f a h
  | .panic m h, _ => .panic m h
  | .blocked n h, _ => .blocked n h
  | .diverged, _ => .diverged
@[simp] theorem bind_ok (a : α) (h : Heap S) (f : α → Heap S → Res S β) :
    (Res.ok a h).bind f = f a h := rfl
@[simp] theorem bind_panic (m : String) (h : Heap S) (f : α → Heap S → Res S β) :
    (Res.panic m h).bind f = .panic m h := rfl
@[simp] theorem bind_blocked (n : NodeId) (h : Heap S) (f : α → Heap S → Res S β) :
    (Res.blocked n h).bind f = .blocked n h := rfl
@[simp] theorem bind_diverged (f : α → Heap S → Res S β) :
    (Res.diverged : Res S α).bind f = .diverged := rfl

/-- inversion: a sequence that returns has both parts returning -/
theorem bind_eq_ok {r : Res S α} {f : α → Heap S → Res S β} {b : β} {h' : Heap S}
    (e : r.bind f = .ok b h') : ∃ a h, r = .ok a h ∧ f a h = .ok b h' := by
  cases r with
  | ok a h => exact ⟨a, h, rfl, e⟩
  | panic => cases e
  | blocked => cases e
  | diverged => cases e
end Res

namespace Heap
variable {S : Type}

@[ext] theorem ext' {h h' : Heap S} (a : h.get = h'.get) (b : h.next = h'.next)
    (c : h.dead = h'.dead) (d : h.held = h'.held) : h = h' := by
  cases h; cases h'; simp_all

@[simp] theorem get_modify_self (h : Heap S) (n : NodeId) (f : S → S) :
    (h.modify n f).get n = f (h.get n) := by simp [modify]
theorem get_modify_of_ne (h : Heap S) {n m : NodeId} (f : S → S) (e : m ≠ n) :
    (h.modify n f).get m = h.get m := by simp [modify, e]
theorem get_modify (h : Heap S) (n m : NodeId) (f : S → S) :
    (h.modify n f).get m = if m = n then f (h.get m) else h.get m := rfl
@[simp] theorem next_modify (h : Heap S) (n : NodeId) (f : S → S) :
    (h.modify n f).next = h.next := rfl
@[simp] theorem dead_modify (h : Heap S) (n : NodeId) (f : S → S) :
    (h.modify n f).dead = h.dead := rfl
@[simp] theorem held_modify (h : Heap S) (n : NodeId) (f : S → S) :
    (h.modify n f).held = h.held := rfl
@[simp] theorem get_setHeld (h : Heap S) (n : NodeId) (b : Bool) :
    (h.setHeld n b).get = h.get := (rfl)
@[simp] theorem next_setHeld (h : Heap S) (n : NodeId) (b : Bool) :
    (h.setHeld n b).next = h.next := rfl
@[simp] theorem dead_setHeld (h : Heap S) (n : NodeId) (b : Bool) :
    (h.setHeld n b).dead = h.dead := rfl
theorem held_setHeld (h : Heap S) (n m : NodeId) (b : Bool) :
    (h.setHeld n b).held m = if m = n then b else h.held m := rfl
@[simp] theorem held_setHeld_self (h : Heap S) (n : NodeId) (b : Bool) :
    (h.setHeld n b).held n = b := by simp [setHeld]

theorem setHeld_setHeld_false (h : Heap S) (n : NodeId) (e : h.held n = false) :
    (h.setHeld n true).setHeld n false = h := by
  ext m
  · rfl
  · rfl
  · rfl
  · simp only [held_setHeld]; split <;> simp_all

theorem setHeld_modify_setHeld (h : Heap S) (n m : NodeId) (f : S → S) (e : h.held n = false) :
    ((h.setHeld n true).modify m f).setHeld n false = h.modify m f := by
  ext k
  · rfl
  · rfl
  · rfl
  · simp only [held_setHeld, held_modify]; split <;> simp_all

theorem modify_setHeld_comm (h : Heap S) (n m : NodeId) (b : Bool) (f : S → S) :
    (h.modify m f).setHeld n b = (h.setHeld n b).modify m f := rfl

theorem Unlocked.modify {h : Heap S} (u : h.Unlocked) (n : NodeId) (f : S → S) :
    (h.modify n f).Unlocked := u

theorem Unlocked.push {h : Heap S} (u : h.Unlocked) (s : S) : (h.push s).Unlocked := by
  intro n; exact u n

@[simp] theorem modify_id (h : Heap S) (n : NodeId) : h.modify n (fun s => s) = h := by
  ext m
  · simp [Heap.modify]
  all_goals rfl

theorem modify_modify (h : Heap S) (n : NodeId) (f g : S → S) :
    (h.modify n f).modify n g = h.modify n (fun s => g (f s)) := by
  ext m
  · simp only [Heap.modify]; split <;> simp_all
  all_goals rfl

/-- a write whose function acts as the identity on the stored value changes nothing -/
theorem modify_eq_self (h : Heap S) (n : NodeId) (f : S → S) (e : f (h.get n) = h.get n) :
    h.modify n f = h := by
  ext m
  · simp only [Heap.modify]; split
    · subst_vars; exact e
    · rfl
  all_goals rfl

end Heap

open Prog
variable {S α β : Type}

theorem run_bind' (p : Prog S α) (f : α → Prog S β) (h : Heap S) :
    run (p.bind f) h = (run p h).bind fun a h' => run (f a) h' := by
  induction p generalizing h with
  | ret a => rfl
  | lock n k ih => simp only [Prog.bind, run]; split <;> simp [ih]
  | unlock n k ih => simp [Prog.bind, run, ih]
  | read n k ih => simp [Prog.bind, run, ih]
  | write n g k ih => simp [Prog.bind, run, ih]
  | upgrade n k ih => simp [Prog.bind, run, ih]
  | alloc s k ih => simp [Prog.bind, run, ih]
  | panic m => rfl
  | diverge => rfl

@[simp] theorem run_bind (p : Prog S α) (f : α → Prog S β) (h : Heap S) :
    run (p >>= f) h = (run p h).bind fun a h' => run (f a) h' := run_bind' p f h
@[simp] theorem run_pure (a : α) (h : Heap S) : run (pure a : Prog S α) h = .ok a h := rfl
@[simp] theorem run_ret (a : α) (h : Heap S) : run (.ret a : Prog S α) h = .ok a h := rfl
@[simp] theorem run_panic (m : String) (h : Heap S) :
    run (.panic m : Prog S α) h = .panic m h := rfl
@[simp] theorem run_diverge (h : Heap S) : run (.diverge : Prog S α) h = .diverged := rfl
theorem run_doLock (n : NodeId) (h : Heap S) :
    run (doLock n) h = if h.held n then .blocked n h else .ok () (h.setHeld n true) := rfl
@[simp] theorem run_doUnlock (n : NodeId) (h : Heap S) :
    run (doUnlock n) h = .ok () (h.setHeld n false) := rfl
@[simp] theorem run_doRead (n : NodeId) (h : Heap S) : run (doRead n) h = .ok (h.get n) h := rfl
@[simp] theorem run_doWrite (n : NodeId) (f : S → S) (h : Heap S) :
    run (doWrite n f) h = .ok () (h.modify n f) := rfl
@[simp] theorem run_doUpgrade (n : NodeId) (h : Heap S) :
    run (doUpgrade n) h = .ok (!h.dead n) h := rfl
@[simp] theorem run_doAlloc (s : S) (h : Heap S) :
    run (doAlloc s) h = .ok h.next (h.push s) := rfl

theorem run_doLock_free (n : NodeId) (h : Heap S) (e : h.held n = false) :
    run (doLock n) h = .ok () (h.setHeld n true) := by simp [run_doLock, e]
theorem run_doLock_held (n : NodeId) (h : Heap S) (e : h.held n = true) :
    run (doLock n) h = .blocked n h := by simp [run_doLock, e]

theorem run_peek (n : NodeId) (h : Heap S) (e : h.held n = false) :
    run (peek n) h = .ok (h.get n) h := by
  simp [peek, run_doLock, e, Heap.setHeld_setHeld_false]
theorem run_peek_held (n : NodeId) (h : Heap S) (e : h.held n = true) :
    run (peek n) h = .blocked n h := by simp [peek, run_doLock, e]

theorem run_poke (n : NodeId) (f : S → S) (h : Heap S) (e : h.held n = false) :
    run (poke n f) h = .ok () (h.modify n f) := by
  simp [poke, run_doLock, e, Heap.setHeld_modify_setHeld]
theorem run_poke_held (n : NodeId) (f : S → S) (h : Heap S) (e : h.held n = true) :
    run (poke n f) h = .blocked n h := by simp [poke, run_doLock, e]

@[simp] theorem run_expect_some (a : α) (m : String) (h : Heap S) :
    run (expect (some a) m) h = .ok a h := rfl
@[simp] theorem run_expect_none (m : String) (h : Heap S) :
    run (expect (none : Option α) m) h = .panic m h := rfl
@[simp] theorem run_ofExcept_ok (a : α) (h : Heap S) :
    run (ofExcept (.ok a)) h = .ok a h := rfl
@[simp] theorem run_ofExcept_error (m : String) (h : Heap S) :
    run (ofExcept (.error m : Except String α)) h = .panic m h := rfl

/-! ## loops -/
variable {γ δ ε : Type}

@[simp] theorem run_forEach_nil (f : γ → Prog S Unit) (h : Heap S) :
    run (forEach [] f) h = .ok () h := rfl
@[simp] theorem run_forEach_cons (x : γ) (xs : List γ) (f : γ → Prog S Unit) (h : Heap S) :
    run (forEach (x :: xs) f) h = (run (f x) h).bind fun _ h' => run (forEach xs f) h' := by
  simp [forEach]
@[simp] theorem run_mapList_nil (f : γ → Prog S δ) (h : Heap S) :
    run (mapList [] f) h = .ok [] h := rfl
@[simp] theorem run_mapList_cons (x : γ) (xs : List γ) (f : γ → Prog S δ) (h : Heap S) :
    run (mapList (x :: xs) f) h = (run (f x) h).bind fun y h' =>
      (run (mapList xs f) h').bind fun ys h'' => .ok (y :: ys) h'' := by
  simp [mapList]
@[simp] theorem run_filterList_nil (p : γ → Prog S Bool) (h : Heap S) :
    run (filterList [] p) h = .ok [] h := rfl
@[simp] theorem run_filterList_cons (x : γ) (xs : List γ) (p : γ → Prog S Bool) (h : Heap S) :
    run (filterList (x :: xs) p) h = (run (p x) h).bind fun b h' =>
      (run (filterList xs p) h').bind fun ys h'' => .ok (if b then x :: ys else ys) h'' := by
  simp [filterList]
@[simp] theorem run_tryEach_nil (f : γ → Prog S (Except ε Unit)) (h : Heap S) :
    run (tryEach [] f) h = .ok (.ok ()) h := rfl
theorem run_tryEach_cons (x : γ) (xs : List γ) (f : γ → Prog S (Except ε Unit)) (h : Heap S) :
    run (tryEach (x :: xs) f) h = (run (f x) h).bind fun r h' =>
      match r with
      | .error e => .ok (.error e) h'
      | .ok () => run (tryEach xs f) h' := by
  simp only [tryEach, run_bind]
  congr; funext r h'
  cases r <;> rfl
@[simp] theorem run_findFirst_nil (p : γ → Prog S Bool) (h : Heap S) :
    run (findFirst [] p) h = .ok none h := rfl
theorem run_findFirst_cons (x : γ) (xs : List γ) (p : γ → Prog S Bool) (h : Heap S) :
    run (findFirst (x :: xs) p) h = (run (p x) h).bind fun b h' =>
      if b then .ok (some x) h' else run (findFirst xs p) h' := by
  simp only [findFirst, run_bind]
  congr; funext b h'
  cases b <;> rfl

theorem run_mapList_append (xs ys : List γ) (f : γ → Prog S δ) (h : Heap S) :
    run (mapList (xs ++ ys) f) h = (run (mapList xs f) h).bind fun a h' =>
      (run (mapList ys f) h').bind fun b h'' => .ok (a ++ b) h'' := by
  induction xs generalizing h with
  | nil =>
    simp only [List.nil_append, run_mapList_nil, Res.bind_ok]
    cases run (mapList ys f) h <;> rfl
  | cons x xs ih =>
    simp only [List.cons_append, run_mapList_cons, ih]
    cases run (f x) h with
    | ok y h1 =>
      simp only [Res.bind_ok]
      cases run (mapList xs f) h1 with
      | ok a h2 =>
        simp only [Res.bind_ok]
        cases run (mapList ys f) h2 <;> rfl
      | _ => rfl
    | _ => rfl

theorem run_forEach_append (xs ys : List γ) (f : γ → Prog S Unit) (h : Heap S) :
    run (forEach (xs ++ ys) f) h =
      (run (forEach xs f) h).bind fun _ h' => run (forEach ys f) h' := by
  induction xs generalizing h with
  | nil => rfl
  | cons x xs ih =>
    simp only [List.cons_append, run_forEach_cons, ih]
    cases run (f x) h <;> rfl

/-- a loop of read-only computations -/
theorem run_mapList_pure {xs : List γ} {f : γ → Prog S δ} {g : γ → δ} {h : Heap S}
    (e : ∀ x ∈ xs, run (f x) h = .ok (g x) h) : run (mapList xs f) h = .ok (xs.map g) h := by
  induction xs with
  | nil => rfl
  | cons x xs ih =>
    simp [e x (by simp), ih fun y hy => e y (by simp [hy])]

theorem run_filterList_pure {xs : List γ} {p : γ → Prog S Bool} {g : γ → Bool} {h : Heap S}
    (e : ∀ x ∈ xs, run (p x) h = .ok (g x) h) :
    run (filterList xs p) h = .ok (xs.filter g) h := by
  induction xs with
  | nil => rfl
  | cons x xs ih =>
    simp only [run_filterList_cons, e x (by simp), Res.bind_ok,
      ih fun y hy => e y (by simp [hy]), List.filter_cons]

theorem run_findFirst_pure {xs : List γ} {p : γ → Prog S Bool} {g : γ → Bool} {h : Heap S}
    (e : ∀ x ∈ xs, run (p x) h = .ok (g x) h) :
    run (findFirst xs p) h = .ok (xs.find? g) h := by
  induction xs with
  | nil => rfl
  | cons x xs ih =>
    simp only [run_findFirst_cons, e x (by simp), Res.bind_ok,
      ih fun y hy => e y (by simp [hy]), List.find?_cons]
    cases g x <;> rfl

/-- a loop of unconditional writes -/
theorem run_forEach_modify {xs : List γ} {f : γ → Prog S Unit} {node : γ → NodeId}
    {g : γ → S → S} {h : Heap S} (u : h.Unlocked)
    (e : ∀ x ∈ xs, ∀ h' : Heap S, h'.Unlocked → run (f x) h' = .ok () (h'.modify (node x) (g x))) :
    run (forEach xs f) h = .ok () (xs.foldl (fun h x => h.modify (node x) (g x)) h) := by
  induction xs generalizing h with
  | nil => rfl
  | cons x xs ih =>
    simp only [run_forEach_cons, e x (by simp) h u, Res.bind_ok, List.foldl_cons]
    exact ih (u.modify _ _) fun y hy => e y (by simp [hy])

/-! ## node programs -/
variable {T : Type} [Scalar T]

/-- the node a `Weak` leads to -/
def upgradeOpt (h : KHeap T) : Option NodeId → Option NodeId
  | some w => if h.dead w then none else some w
  | none => none

theorem run_Node_joint (n : NodeId) (h : KHeap T) (e : h.held n = false) :
    run (Node.joint n) h = .ok (h.get n).joint h := by simp [Node.joint, run_peek _ _ e]
theorem run_Node_jointPosition (n : NodeId) (h : KHeap T) (e : h.held n = false) :
    run (Node.jointPosition n) h = .ok (h.get n).joint.jointPosition h := by
  simp [Node.jointPosition, run_peek _ _ e]
theorem run_Node_children (n : NodeId) (h : KHeap T) (e : h.held n = false) :
    run (Node.children n) h = .ok (h.get n).children h := by simp [Node.children, run_peek _ _ e]
theorem run_Node_isRoot (n : NodeId) (h : KHeap T) (e : h.held n = false) :
    run (Node.isRoot n) h = .ok (h.get n).parent.isNone h := by simp [Node.isRoot, run_peek _ _ e]
theorem run_Node_isEnd (n : NodeId) (h : KHeap T) (e : h.held n = false) :
    run (Node.isEnd n) h = .ok (h.get n).children.isEmpty h := by
  simp [Node.isEnd, run_peek _ _ e]
theorem run_Node_link (n : NodeId) (h : KHeap T) (e : h.held n = false) :
    run (Node.link n) h = .ok (h.get n).link h := by simp [Node.link, run_peek _ _ e]
theorem run_Node_origin (n : NodeId) (h : KHeap T) (e : h.held n = false) :
    run (Node.origin n) h = .ok (h.get n).joint.origin h := by
  simp [Node.origin, run_Node_joint _ _ e]
theorem run_Node_worldTransform (n : NodeId) (h : KHeap T) (e : h.held n = false) :
    run (Node.worldTransform n) h = .ok (h.get n).joint.worldTransform h := by
  simp [Node.worldTransform, run_Node_joint _ _ e]
theorem run_Node_worldVelocity (n : NodeId) (h : KHeap T) (e : h.held n = false) :
    run (Node.worldVelocity n) h = .ok (h.get n).joint.worldVelocity h := by
  simp [Node.worldVelocity, run_Node_joint _ _ e]
theorem run_Node_parent (n : NodeId) (h : KHeap T) (e : h.held n = false) :
    run (Node.parent n) h = .ok (upgradeOpt h (h.get n).parent) h := by
  simp only [Node.parent, run_bind, run_doLock_free _ _ e, Res.bind_ok, run_doRead,
    Heap.get_setHeld]
  cases h' : (h.get n).parent with
  | none => simp [upgradeOpt, Heap.setHeld_setHeld_false _ _ e]
  | some w =>
    cases hd : h.dead w <;> simp [upgradeOpt, Heap.setHeld_setHeld_false _ _ e, hd]
theorem run_Node_mimicParent (n : NodeId) (h : KHeap T) (e : h.held n = false) :
    run (Node.mimicParent n) h = .ok (upgradeOpt h (h.get n).mimicParent) h := by
  simp only [Node.mimicParent, run_bind, run_doLock_free _ _ e, Res.bind_ok, run_doRead,
    Heap.get_setHeld]
  cases h' : (h.get n).mimicParent with
  | none => simp [upgradeOpt, Heap.setHeld_setHeld_false _ _ e]
  | some w =>
    cases hd : h.dead w <;> simp [upgradeOpt, Heap.setHeld_setHeld_false _ _ e, hd]
theorem run_Node_parentWorldTransform (n : NodeId) (h : KHeap T) (u : h.Unlocked) :
    run (Node.parentWorldTransform n) h = .ok (match upgradeOpt h (h.get n).parent with
      | some p => (h.get p).joint.worldTransform
      | none => some Iso.one) h := by
  simp only [Node.parentWorldTransform, run_bind, run_Node_parent _ _ (u n), Res.bind_ok]
  cases upgradeOpt h (h.get n).parent with
  | none => rfl
  | some p => simp [run_Node_worldTransform _ _ (u p)]
theorem run_Node_parentWorldVelocity (n : NodeId) (h : KHeap T) (u : h.Unlocked) :
    run (Node.parentWorldVelocity n) h = .ok (match upgradeOpt h (h.get n).parent with
      | some p => (h.get p).joint.worldVelocity
      | none => some Velocity.zero) h := by
  simp only [Node.parentWorldVelocity, run_bind, run_Node_parent _ _ (u n), Res.bind_ok]
  cases upgradeOpt h (h.get n).parent with
  | none => rfl
  | some p => simp [run_Node_worldVelocity _ _ (u p)]
theorem run_Node_setParent (n p : NodeId) (h : KHeap T) (u : h.Unlocked) :
    run (Node.setParent n p) h = .ok () ((h.modify n fun s => { s with parent := some p }).modify p
      fun s => { s with children := s.children ++ [n] }) := by
  simp [Node.setParent, run_poke, u n, u p]
theorem run_Node_removeParent (n p : NodeId) (h : KHeap T) (u : h.Unlocked) :
    run (Node.removeParent n p) h = .ok () ((h.modify n fun s => { s with parent := none }).modify p
      fun s => { s with children := s.children.filter (fun x => x != n) }) := by
  simp [Node.removeParent, run_poke, u n, u p]
theorem run_Node_setMimicParent (n p : NodeId) (m : Mimic T) (h : KHeap T) (u : h.Unlocked) :
    run (Node.setMimicParent n p m) h = .ok ()
      (((h.modify n fun s => { s with mimicParent := some p }).modify p
        fun s => { s with mimicChildren := s.mimicChildren ++ [n] }).modify n
        fun s => { s with mimic := some m }) := by
  simp [Node.setMimicParent, run_poke, u n, u p]
theorem run_Node_setOrigin (n : NodeId) (t : Iso T) (h : KHeap T) (u : h.Unlocked) :
    run (Node.setOrigin n t) h =
      .ok () (h.modify n fun s => { s with joint := s.joint.setOrigin t }) := by
  simp [Node.setOrigin, run_poke, u n]
theorem run_Node_setLink (n : NodeId) (l : Option (Link T)) (h : KHeap T) (u : h.held n = false) :
    run (Node.setLink n l) h = .ok () (h.modify n fun s => { s with link := l }) := by
  simp [Node.setLink, run_poke, u]
theorem run_Node_setJointPositionClamped (n : NodeId) (x : T) (h : KHeap T) (u : h.Unlocked) :
    run (Node.setJointPositionClamped n x) h =
      .ok () (h.modify n fun s => { s with joint := s.joint.setJointPositionClamped x }) := by
  simp [Node.setJointPositionClamped, run_poke, u n]
theorem run_Node_setJointPositionUnchecked (n : NodeId) (x : T) (h : KHeap T) (u : h.Unlocked) :
    run (Node.setJointPositionUnchecked n x) h =
      .ok () (h.modify n fun s => { s with joint := s.joint.setJointPositionUnchecked x }) := by
  simp [Node.setJointPositionUnchecked, run_poke, u n]
theorem run_Node_new (j : Joint T) (h : KHeap T) :
    run (Node.new j) h = .ok h.next (h.push (NodeImpl.fresh j)) := by simp [Node.new]

end K
