import Verif.Spec.Rename
import Verif.Lemmas.Run
/-!
# Programs of renamed nodes
-/

set_option linter.unusedSectionVars false

namespace K
open Prog
variable {T : Type} {α β γ δ ε : Type} {ρ : Equiv.Perm NodeId}

namespace NodeImpl

@[simp] theorem rename_symm (s : NodeImpl T) : (s.rename ρ).rename ρ.symm = s := by
  simp [NodeImpl.rename, Function.comp_def]
@[simp] theorem rename_symm' (s : NodeImpl T) : (s.rename ρ.symm).rename ρ = s := by
  simp [NodeImpl.rename, Function.comp_def]

end NodeImpl

/-- the program that does the same to the other objects; results are as they were -/
def Prog.rename (ρ : Equiv.Perm NodeId) : KProg T α → KProg T α
  | .ret a => .ret a
  | .lock n k => .lock (ρ n) (k.rename ρ)
  | .unlock n k => .unlock (ρ n) (k.rename ρ)
  | .read n k => .read (ρ n) fun s => (k (s.rename ρ.symm)).rename ρ
  | .write n f k => .write (ρ n) (fun s => (f (s.rename ρ.symm)).rename ρ) (k.rename ρ)
  | .upgrade n k => .upgrade (ρ n) fun b => (k b).rename ρ
  | .alloc s k => .alloc (s.rename ρ) fun m => (k (ρ.symm m)).rename ρ
  | .panic m => .panic m
  | .diverge => .diverge

theorem rename_bind (p : KProg T α) (f : α → KProg T β) :
    (p >>= f).rename ρ = p.rename ρ >>= fun a => (f a).rename ρ := by
  show (p.bind f).rename ρ = (p.rename ρ).bind fun a => (f a).rename ρ
  induction p with
  | ret a => rfl
  | lock n k ih => simp only [Prog.bind, Prog.rename, ih]
  | unlock n k ih => simp only [Prog.bind, Prog.rename, ih]
  | read n k ih => simp only [Prog.bind, Prog.rename, ih]
  | write n g k ih => simp only [Prog.bind, Prog.rename, ih]
  | upgrade n k ih => simp only [Prog.bind, Prog.rename, ih]
  | alloc s k ih => simp only [Prog.bind, Prog.rename, ih]
  | panic m => rfl
  | diverge => rfl

namespace Heap
variable {h : KHeap T}

theorem rename_get (n : NodeId) : (h.rename ρ).get (ρ n) = (h.get n).rename ρ := by simp [Heap.rename]
theorem rename_held (n : NodeId) : (h.rename ρ).held (ρ n) = h.held n := by simp [Heap.rename]
theorem rename_dead (n : NodeId) : (h.rename ρ).dead (ρ n) = h.dead n := by simp [Heap.rename]

private theorem symm_eq (m n : NodeId) : (ρ.symm m = n) = (m = ρ n) := propext (Equiv.symm_apply_eq ρ)

theorem rename_setHeld (n : NodeId) (b : Bool) : (h.setHeld n b).rename ρ = (h.rename ρ).setHeld (ρ n) b := by
  simp only [Heap.rename, Heap.setHeld, symm_eq]

theorem rename_modify (n : NodeId) (f : NodeImpl T → NodeImpl T) : (h.modify n f).rename ρ =
    (h.rename ρ).modify (ρ n) fun s => (f (s.rename ρ.symm)).rename ρ := by
  simp only [Heap.rename, Heap.modify, symm_eq, NodeImpl.rename_symm]
  congr 1
  funext m
  split <;> rfl

theorem rename_push (s : NodeImpl T) (fix : ρ h.next = h.next) :
    (h.push s).rename ρ = (h.rename ρ).push (s.rename ρ) := by
  simp only [Heap.rename, Heap.push, symm_eq, fix]
  congr 1
  funext m
  by_cases e : m = h.next <;> simp only [e, if_true, if_false]

theorem rename_free (F : NodeId → Bool) : (h.free F).rename ρ = (h.rename ρ).free fun n => F (ρ.symm n) := rfl

end Heap

theorem run_rename (p : KProg T α) (h : KHeap T) (fix : ∀ n, h.next ≤ n → ρ n = n) :
    run (p.rename ρ) (h.rename ρ) = (run p h).rename ρ := by
  induction p generalizing h with
  | ret a => rfl
  | lock n k ih =>
    simp only [Prog.rename, run, Heap.rename_held]
    split
    · rfl
    · rw [← Heap.rename_setHeld]; exact ih _ fix
  | unlock n k ih => simp only [Prog.rename, run]; rw [← Heap.rename_setHeld]; exact ih _ fix
  | read n k ih => simp only [Prog.rename, run, Heap.rename_get, NodeImpl.rename_symm]; exact ih _ _ fix
  | write n f k ih => simp only [Prog.rename, run]; rw [← Heap.rename_modify]; exact ih _ fix
  | upgrade n k ih => simp only [Prog.rename, run, Heap.rename_dead]; exact ih _ _ fix
  | alloc s k ih =>
    have e := fix _ (Nat.le_refl _)
    have e' : ρ.symm h.next = h.next := by rw [Equiv.symm_apply_eq]; exact e.symm
    simp only [Prog.rename, run]
    rw [← Heap.rename_push s e, show (h.rename ρ).next = h.next from rfl, e']
    exact ih _ _ fun n hn => fix n (Nat.le_of_succ_le hn)
  | panic m => rfl
  | diverge => rfl

theorem step1_rename (p p' : KProg T α) (h h' : KHeap T) (fix : ∀ n, h.next ≤ n → ρ n = n)
    (e : step1 p h = some (p', h')) :
    step1 (p.rename ρ) (h.rename ρ) = some (p'.rename ρ, h'.rename ρ) ∧ h.next ≤ h'.next := by
  cases p with
  | ret a => cases e
  | lock n k =>
    simp only [Prog.rename, step1, Heap.rename_held] at e ⊢
    split at e
    · cases e
    · cases e; rename_i x
      rw [if_neg x, Heap.rename_setHeld]; exact ⟨rfl, Nat.le_refl _⟩
  | unlock n k => cases e; rw [Heap.rename_setHeld]; exact ⟨rfl, Nat.le_refl _⟩
  | read n k => cases e; simp only [Prog.rename, step1, Heap.rename_get, NodeImpl.rename_symm]; exact ⟨trivial, Nat.le_refl _⟩
  | write n f k => cases e; rw [Heap.rename_modify]; exact ⟨rfl, Nat.le_refl _⟩
  | upgrade n k => cases e; simp only [Prog.rename, step1, Heap.rename_dead]; exact ⟨trivial, Nat.le_refl _⟩
  | alloc s k =>
    cases e
    have e := fix _ (Nat.le_refl _)
    have e' : ρ.symm h.next = h.next := by rw [Equiv.symm_apply_eq]; exact e.symm
    rw [Heap.rename_push s e]
    exact ⟨by simp only [Prog.rename, step1, Heap.rename, e'], Nat.le_succ _⟩
  | panic m => cases e
  | diverge => cases e; exact ⟨rfl, Nat.le_refl _⟩

/-- `q` does to the other objects what `p` does, and hands out `A a` where `p` hands out `a` -/
def Mirror (ρ : Equiv.Perm NodeId) (A : α → β) (p : KProg T α) (q : KProg T β) : Prop :=
  q = p.rename ρ >>= fun a => .ret (A a)

theorem bind_assoc' (p : KProg T α) (f : α → KProg T β) (g : β → KProg T γ) :
    p >>= f >>= g = p >>= fun a => f a >>= g := by
  show (p.bind f).bind g = p.bind fun a => (f a).bind g
  induction p with
  | ret a => rfl
  | lock n k ih => simp only [Prog.bind, ih]
  | unlock n k ih => simp only [Prog.bind, ih]
  | read n k ih => simp only [Prog.bind, ih]
  | write n g k ih => simp only [Prog.bind, ih]
  | upgrade n k ih => simp only [Prog.bind, ih]
  | alloc s k ih => simp only [Prog.bind, ih]
  | panic m => rfl
  | diverge => rfl

theorem bind_ret' (p : KProg T α) : (p >>= fun a => .ret a) = p := by
  show p.bind (fun a => .ret a) = p
  induction p with
  | ret a => rfl
  | lock n k ih => simp only [Prog.bind, ih]
  | unlock n k ih => simp only [Prog.bind, ih]
  | read n k ih => simp only [Prog.bind, ih]
  | write n g k ih => simp only [Prog.bind, ih]
  | upgrade n k ih => simp only [Prog.bind, ih]
  | alloc s k ih => simp only [Prog.bind, ih]
  | panic m => rfl
  | diverge => rfl

namespace Mirror

theorem eq {p q : KProg T α} (m : Mirror ρ id p q) : q = p.rename ρ := by
  rw [m]; exact bind_ret' _

theorem ret (A : α → β) (a : α) : Mirror ρ A (.ret a : KProg T α) (.ret (A a)) := rfl
theorem ret' {A : α → β} {a : α} {b : β} (e : b = A a) : Mirror ρ A (.ret a : KProg T α) (.ret b) := e ▸ rfl
theorem pure {A : α → β} {a : α} {b : β} (e : b = A a) : Mirror ρ A (pure a : KProg T α) (pure b) := e ▸ rfl
theorem panic (A : α → β) (m : String) : Mirror ρ A (.panic m : KProg T α) (.panic m) := rfl
theorem diverge (A : α → β) : Mirror ρ A (.diverge : KProg T α) .diverge := rfl

theorem bind {A : α → γ} {B : β → δ} {p : KProg T α} {q : KProg T γ} {f : α → KProg T β} {g : γ → KProg T δ}
    (h : Mirror ρ A p q) (hf : ∀ a, Mirror ρ B (f a) (g (A a))) : Mirror ρ B (p >>= f) (q >>= g) := by
  unfold Mirror at *
  rw [h, rename_bind, bind_assoc', bind_assoc']
  congr 1
  funext a
  exact hf a

theorem doLock (n : NodeId) : Mirror ρ id (doLock n : KProg T Unit) (doLock (ρ n)) := rfl
theorem doUnlock (n : NodeId) : Mirror ρ id (doUnlock n : KProg T Unit) (doUnlock (ρ n)) := rfl
theorem doUpgrade (n : NodeId) : Mirror ρ id (doUpgrade n : KProg T Bool) (doUpgrade (ρ n)) := rfl
theorem doRead (n : NodeId) : Mirror ρ (NodeImpl.rename ρ) (doRead n : KProg T _) (doRead (ρ n)) := by
  show _ = Prog.read (ρ n) fun s : NodeImpl T => Prog.ret ((s.rename ρ.symm).rename ρ)
  simp only [NodeImpl.rename_symm']; rfl
theorem doWrite {n : NodeId} {f f' : NodeImpl T → NodeImpl T} (e : ∀ s, f' (s.rename ρ) = (f s).rename ρ) :
    Mirror ρ id (doWrite n f) (doWrite (ρ n) f') := by
  show _ = Prog.write (ρ n) (fun s => (f (s.rename ρ.symm)).rename ρ) _
  simp only [← e, NodeImpl.rename_symm']; rfl
theorem doAlloc {s s' : NodeImpl T} (e : s' = s.rename ρ) : Mirror ρ ρ (doAlloc s) (doAlloc s') := by
  subst e
  show _ = Prog.alloc (s.rename ρ) fun m => Prog.ret (ρ (ρ.symm m))
  simp only [Equiv.apply_symm_apply]; rfl

theorem peek (n : NodeId) : Mirror ρ (NodeImpl.rename ρ) (peek n : KProg T _) (peek (ρ n)) :=
  (doLock n).bind fun _ => (doRead n).bind fun _ => (doUnlock n).bind fun _ => ret _ _
theorem poke {n : NodeId} {f f' : NodeImpl T → NodeImpl T} (e : ∀ s, f' (s.rename ρ) = (f s).rename ρ) :
    Mirror ρ id (poke n f) (poke (ρ n) f') :=
  (doLock n).bind fun _ => (doWrite e).bind fun _ => doUnlock n

theorem expect (A : α → β) (o : Option α) (m : String) :
    Mirror ρ A (expect o m : KProg T α) (expect (o.map A) m) := by cases o <;> rfl
theorem expect' {o : Option α} (m : String) : Mirror ρ id (Prog.expect o m : KProg T α) (Prog.expect o m) := by
  cases o <;> rfl
theorem ofExcept (x : Except String α) : Mirror ρ id (ofExcept x : KProg T α) (ofExcept x) := by cases x <;> rfl

theorem forEach {A : γ → δ} {f : γ → KProg T Unit} {g : δ → KProg T Unit} (h : ∀ x, Mirror ρ id (f x) (g (A x)))
    (xs : List γ) : Mirror ρ id (forEach xs f) (forEach (xs.map A) g) := by
  induction xs with
  | nil => rfl
  | cons x xs ih => exact (h x).bind fun _ => ih

theorem mapList {A : γ → δ} {B : α → β} {f : γ → KProg T α} {g : δ → KProg T β}
    (h : ∀ x, Mirror ρ B (f x) (g (A x))) (xs : List γ) :
    Mirror ρ (List.map B) (mapList xs f) (mapList (xs.map A) g) := by
  induction xs with
  | nil => rfl
  | cons x xs ih => exact (h x).bind fun _ => ih.bind fun _ => rfl

theorem mapList' {A : γ → δ} {f : γ → KProg T α} {g : δ → KProg T α}
    (h : ∀ x, Mirror ρ id (f x) (g (A x))) (xs : List γ) :
    Mirror ρ id (Prog.mapList xs f) (Prog.mapList (xs.map A) g) := by
  have := mapList h xs
  rwa [List.map_id_fun] at this

theorem filterList {A : γ → δ} {f : γ → KProg T Bool} {g : δ → KProg T Bool}
    (h : ∀ x, Mirror ρ id (f x) (g (A x))) (xs : List γ) :
    Mirror ρ (List.map A) (filterList xs f) (filterList (xs.map A) g) := by
  induction xs with
  | nil => rfl
  | cons x xs ih => exact (h x).bind fun b => ih.bind fun _ => by cases b <;> rfl

theorem tryEach {A : γ → δ} {f : γ → KProg T (Except ε Unit)} {g : δ → KProg T (Except ε Unit)}
    (h : ∀ x, Mirror ρ id (f x) (g (A x))) (xs : List γ) :
    Mirror ρ id (tryEach xs f) (tryEach (xs.map A) g) := by
  induction xs with
  | nil => rfl
  | cons x xs ih =>
    refine (h x).bind fun b => ?_
    cases b
    · rfl
    · exact ih

theorem findFirst {A : γ → δ} {f : γ → KProg T Bool} {g : δ → KProg T Bool}
    (h : ∀ x, Mirror ρ id (f x) (g (A x))) (xs : List γ) :
    Mirror ρ (Option.map A) (findFirst xs f) (findFirst (xs.map A) g) := by
  induction xs with
  | nil => rfl
  | cons x xs ih =>
    refine (h x).bind fun b => ?_
    cases b
    · exact ih
    · rfl

end Mirror
end K
