import Verif.Model.Release
import Verif.Lemmas.UpTo
import Verif.Lemmas.Sched
import Verif.Props.Ik
import Verif.Props.Serial
import Verif.Props.Nullspace
/-!
# C77: builds without overflow checks
-/

namespace K
open Prog
variable {T : Type} [Scalar T]

/-- the panic of the debug profile -/
abbrev overflow : String := "attempt to subtract with overflow"

theorem wrappingSub_le {W a b : Nat} (h : b ≤ a) : wrappingSub W a b = a - b := if_pos h

theorem wrappingSub_lt {W a b : Nat} (h : a < b) : wrappingSub W a b = W + a - b := if_neg (by omega)

theorem ofExcept_bind {S α β : Type} (x : Except String α) (f : α → Except String β) :
    Prog.ofExcept (S := S) (x >>= f) = Prog.ofExcept x >>= fun a => Prog.ofExcept (f a) := by
  cases x <;> rfl

theorem ofExcept_ok_bind {S α β : Type} (a : α) (f : α → Prog S β) :
    (Prog.ofExcept (.ok a) >>= f) = f a := rfl

theorem upTo_tryNew (W : Nat) (c : Chain) : UpTo overflow (c.tryNew (T := T)) (c.tryNewR W) := by
  unfold Chain.tryNew Chain.tryNewR
  cases e : c.nodes.length with
  | zero => exact .cut _
  | succ k =>
    rw [wrappingSub_le (by omega)]
    exact .refl _

theorem upTo_removeIndices {W : Nat} {wr : Wrapped T} {α : Type} (is : List Nat) (i : Nat) (xs : List α) :
    UpTo overflow (Prog.ofExcept (removeIndices is i xs)) (removeIndicesR W wr is i xs) := by
  induction is generalizing i xs with
  | nil => exact .ret _
  | cons ji rest ih =>
    unfold removeIndices removeIndicesR
    by_cases h1 : ji < i
    · rw [if_pos h1]; exact .cut _
    · rw [if_neg h1, if_neg h1]
      by_cases h2 : ji - i < xs.length
      · rw [if_pos h2, if_pos h2]; exact ih _ _
      · rw [if_neg h2, if_neg h2]; exact .panic _

theorem upTo_nextPositions {W : Nat} {wr : Wrapped T} (s : IkSolver T) (ops : List Bool) (ignored : List Nat)
    (dof : Nat) (le : ignored.length ≤ dof) (jac : Mat T) (err orig : List T) :
    UpTo overflow (Prog.ofExcept (nextPositions s ops ignored dof jac err orig))
      (nextPositionsR W wr s ops ignored dof jac err orig) := by
  unfold nextPositions nextPositionsR
  rw [wrappingSub_le le]
  simp only [ofExcept_bind]
  refine .bind (.refl _) fun jac => .bind (upTo_removeIndices _ _ _) fun jac => ?_
  split
  · split
    · exact .panic _
    · cases s.nullspaceFunction with
      | some f =>
        simp only [ofExcept_bind]
        refine .bind (.refl _) fun sub => .bind (upTo_removeIndices _ _ _) fun sub => ?_
        split
        · exact .panic _
        · simp only [ofExcept_bind]
          exact .bind (.refl _) fun dq => .refl _
      | none =>
        simp only [ofExcept_bind]
        exact .bind (.refl _) fun dq => .refl _
  · cases s.la.lu jac err <;> exact .refl _

theorem upTo_solveOneLoop {W : Nat} {wr : Wrapped T} (s : IkSolver T) (arm : Chain) (target : Iso T)
    (ops : List Bool) (ignored : List Nat) (le : ignored.length ≤ arm.dof) :
    UpTo overflow (solveOneLoop s arm target ops ignored) (solveOneLoopR W wr s arm target ops ignored) :=
  .bind (.refl _) fun _ => .bind (.refl _) fun _ => .bind (.refl _) fun _ =>
    .bind (upTo_nextPositions s ops ignored arm.dof le _ _ _) fun r => by cases r <;> exact .refl _

theorem upTo_tryLoop {W : Nat} {wr : Wrapped T} (s : IkSolver T) (arm : Chain) (target : Iso T)
    (ops : List Bool) (ignored : List Nat) (le : ignored.length ≤ arm.dof) (orig : List T) (left : Nat)
    (last : Option (V3 T × V3 T)) :
    UpTo overflow (tryLoop s arm target ops ignored orig left last)
      (tryLoopR W wr s arm target ops ignored orig left last) := by
  induction left generalizing last with
  | zero => exact .refl _
  | succ left ih =>
    refine .bind (upTo_solveOneLoop s arm target ops ignored le) fun r => ?_
    cases r with
    | error e => exact .refl _
    | ok diff =>
      dsimp only
      split
      · exact .refl _
      · exact ih _

theorem leaves_ignoredIndices (arm : Chain) (names : List String) :
    UpTo.Leaves (fun r => ∀ is, r = .ok is → is.length = names.length)
      (ignoredIndices (T := T) arm names) := by
  induction names with
  | nil => intro is e; cases e; rfl
  | cons a as ih =>
    refine UpTo.leaves_bind (UpTo.leaves_true _) fun o _ => ?_
    cases o with
    | none => intro is e; cases e
    | some i =>
      refine UpTo.leaves_bind ih fun r hr => ?_
      cases r with
      | error e => intro is e; cases e
      | ok js => intro is e; cases e; simp [hr js rfl]

theorem upTo_solveWithConstraints {W : Nat} {wr : Wrapped T} (s : IkSolver T) (arm : Chain) (target : Iso T)
    (c : Constraints) :
    UpTo overflow (solveWithConstraints s arm target c) (solveWithConstraintsR W wr s arm target c) := by
  refine .bind (.refl _) fun _ => .bind ?_ fun r => .refl _
  refine .bind (.refl _) fun _ => ?_
  by_cases lt : arm.dof < c.ignoredJointNames.length
  · rw [if_pos lt]; exact .cut _
  · rw [if_neg lt, wrappingSub_le (by omega)]
    dsimp only
    split
    · exact .refl _
    · refine .bind' (.refl _) (leaves_ignoredIndices arm _) fun r hr => ?_
      cases r with
      | error e => exact .refl _
      | ok is =>
        exact upTo_tryLoop _ _ _ _ _ (by rw [List.length_mergeSort, hr is rfl]; omega) _ _ _

theorem upTo_call {W : Nat} {wr : Wrapped T} {β : Type} (c : Call T β) : UpTo overflow c.prog (c.progR W wr) := by
  cases c
  case tryNew => exact upTo_tryNew _ _
  case solve => exact upTo_solveWithConstraints _ _ _ _
  all_goals exact .refl _

theorem upTo_client {W : Nat} {wr : Wrapped T} {α : Type} (k : Client T α) :
    UpTo overflow k.prog (k.progR W wr) := by
  induction k with
  | done a => exact .ret a
  | call c k ih => exact .bind (upTo_call c) ih

/-- **C77** (one thread).  Any client, started in any state, does in a release build exactly what it does in a
debug build - same value, same panic, same state of all nodes - unless the debug build ends with the overflow
panic. -/
theorem C77_same {α : Type} (W : Nat) (wr : Wrapped T) (k : Client T α) (h : KHeap T) :
    (∃ h', run k.prog h = .panic overflow h') ∨ run (k.progR W wr) h = run k.prog h :=
  (upTo_client k).run h

theorem forall₂_ret {S α : Type} {m : String} {ps qs : List (Prog S α)} (f : List.Forall₂ (UpTo m) ps qs)
    (no : ∀ i : Nat, ps[i]? ≠ some (.panic m)) (i : Nat) (a : α) :
    ps[i]? = some (.ret a) ↔ qs[i]? = some (.ret a) := by
  induction f generalizing i with
  | nil => simp
  | @cons p q ps qs x _ ih =>
    cases i with
    | zero =>
      have := no 0
      simp only [List.getElem?_cons_zero, ne_eq, Option.some.injEq] at this ⊢
      cases x <;> simp_all
    | succ i =>
      simpa using ih (fun j => by simpa using no (j + 1)) i

/-- **C77** (any threads, release to debug).  Whatever state a release build with any number of client threads
reaches, in any interleaving, the debug build reaches a state with the same nodes and the same finished threads
with the same results - or one in which a thread has ended with the overflow panic. -/
theorem C77_threads {α : Type} (W : Nat) (wr : Wrapped T) (ks : List (Client T α)) (h : KHeap T)
    (d : Config (NodeImpl T) α) (st : Steps ⟨h, ks.map fun k => k.progR W wr⟩ d) :
    ∃ e : Config (NodeImpl T) α, Steps ⟨h, ks.map Client.prog⟩ e ∧
      ((∃ i : Nat, e.threads[i]? = some (.panic overflow)) ∨
        e.heap = d.heap ∧ ∀ (i : Nat) (a : α), e.threads[i]? = some (.ret a) ↔ d.threads[i]? = some (.ret a)) := by
  have f : List.Forall₂ (UpTo overflow) (ks.map Client.prog) (ks.map fun k => k.progR W wr) := by
    clear st
    induction ks with
    | nil => exact .nil
    | cons k ks ih => exact .cons (upTo_client k) ih
  obtain ⟨e, se, x⟩ := UpTo.steps_right (d := ⟨h, ks.map Client.prog⟩) st rfl f
  refine ⟨e, se, ?_⟩
  by_cases no : ∃ i : Nat, e.threads[i]? = some (.panic overflow)
  · exact .inl no
  · rcases x with x | ⟨hh, f⟩
    · exact .inl x
    · exact .inr ⟨hh, forall₂_ret f (fun i hi => no ⟨i, hi⟩)⟩

/-- **C77** (any threads, debug to release).  Conversely every state the debug build reaches without an overflow
panic is reached by the release build. -/
theorem C77_threads_back {α : Type} (W : Nat) (wr : Wrapped T) (ks : List (Client T α)) (h : KHeap T)
    (e : Config (NodeImpl T) α) (st : Steps ⟨h, ks.map Client.prog⟩ e)
    (no : ∀ i : Nat, e.threads[i]? ≠ some (.panic overflow)) :
    ∃ d : Config (NodeImpl T) α, Steps ⟨h, ks.map fun k => k.progR W wr⟩ d ∧ e.heap = d.heap ∧
      ∀ (i : Nat) (a : α), e.threads[i]? = some (.ret a) ↔ d.threads[i]? = some (.ret a) := by
  have f : List.Forall₂ (UpTo overflow) (ks.map Client.prog) (ks.map fun k => k.progR W wr) := by
    clear st
    induction ks with
    | nil => exact .nil
    | cons k ks ih => exact .cons (upTo_client k) ih
  obtain ⟨d, sd, hh, f⟩ := UpTo.steps_left (d := ⟨h, ks.map fun k => k.progR W wr⟩) st rfl f
  exact ⟨d, sd, hh.symm, forall₂_ret f no⟩

/-- **C77** (any threads, release to debug, nodes freed at any moments).  Whatever state a release build with any
number of client threads reaches, in any interleaving and with nodes freed while the threads run, the debug build
reaches a state with the same nodes and the same finished threads with the same results - or one in which a thread has ended with the overflow panic. -/
theorem C77_drops {α : Type} (W : Nat) (wr : Wrapped T) (ks : List (Client T α)) (h : KHeap T)
    (d : Config (NodeImpl T) α) (st : DSteps ⟨h, ks.map fun k => k.progR W wr⟩ d) :
    ∃ e : Config (NodeImpl T) α, DSteps ⟨h, ks.map Client.prog⟩ e ∧
      ((∃ i : Nat, e.threads[i]? = some (.panic overflow)) ∨
        e.heap = d.heap ∧ ∀ (i : Nat) (a : α), e.threads[i]? = some (.ret a) ↔ d.threads[i]? = some (.ret a)) := by
  have f : List.Forall₂ (UpTo overflow) (ks.map Client.prog) (ks.map fun k => k.progR W wr) := by
    clear st
    induction ks with
    | nil => exact .nil
    | cons k ks ih => exact .cons (upTo_client k) ih
  obtain ⟨e, se, x⟩ := UpTo.drops_right (d := ⟨h, ks.map Client.prog⟩) st rfl f
  refine ⟨e, se, ?_⟩
  by_cases no : ∃ i : Nat, e.threads[i]? = some (.panic overflow)
  · exact .inl no
  · rcases x with x | ⟨hh, f⟩
    · exact .inl x
    · exact .inr ⟨hh, forall₂_ret f (fun i hi => no ⟨i, hi⟩)⟩

/-- **C77** (any threads, debug to release, nodes freed at any moments).  Conversely every state the debug build
reaches without an overflow panic is reached by the release build. -/
theorem C77_drops_back {α : Type} (W : Nat) (wr : Wrapped T) (ks : List (Client T α)) (h : KHeap T)
    (e : Config (NodeImpl T) α) (st : DSteps ⟨h, ks.map Client.prog⟩ e)
    (no : ∀ i : Nat, e.threads[i]? ≠ some (.panic overflow)) :
    ∃ d : Config (NodeImpl T) α, DSteps ⟨h, ks.map fun k => k.progR W wr⟩ d ∧ e.heap = d.heap ∧
      ∀ (i : Nat) (a : α), e.threads[i]? = some (.ret a) ↔ d.threads[i]? = some (.ret a) := by
  have f : List.Forall₂ (UpTo overflow) (ks.map Client.prog) (ks.map fun k => k.progR W wr) := by
    clear st
    induction ks with
    | nil => exact .nil
    | cons k ks ih => exact .cons (upTo_client k) ih
  obtain ⟨d, sd, hh, f⟩ := UpTo.drops_left (d := ⟨h, ks.map fun k => k.progR W wr⟩) st rfl f
  exact ⟨d, sd, hh.symm, forall₂_ret f no⟩

/-! ## where the debug build panics -/

/-- **C77** (`try_new` of an empty chain).  The debug build panics (C20); the release build answers `Some`. -/
theorem C77_empty (W : Nat) (h : KHeap T) (c : Chain) (e : c.nodes = []) :
    run (c.tryNewR W) h = .ok (some c) h := by
  simp [Chain.tryNewR, e, findFirst]

/-- **C77** (`try_new` of an empty chain, as a call of the API).  A client that calls it and goes on with the answer
ends with the overflow panic in the debug build, and goes on with `Some` in the release build. -/
theorem C77_empty_call {α : Type} (W : Nat) (wr : Wrapped T) (h : KHeap T) (c : Chain) (e : c.nodes = [])
    (k : Option Chain → Client T α) :
    run (Client.call (.tryNew c) k).prog h = .panic overflow h ∧
    run ((Client.call (.tryNew c) k).progR W wr) h = run ((k (some c)).progR W wr) h := by
  constructor
  · simp [Client.prog, Call.prog, Chain.tryNew, e]
  · simp only [Client.progR, Call.progR]
    rw [run_bind, C77_empty W h c e, Res.bind_ok]

theorem run_bind_ok {S α β : Type} {p : Prog S α} {f : α → Prog S β} {h h' : Heap S} {a : α}
    (e : run p h = .ok a h') : run (p >>= f) h = run (f a) h' := by rw [run_bind, e, Res.bind_ok]

theorem run_bind_swap {S α β : Type} {p q : Prog S α} {f : α → Prog S β} {h h' : Heap S}
    (e : run p h = run q h') : run (p >>= f) h = run (q >>= f) h' := by rw [run_bind, e, ← run_bind]

/-- The removal loop.  Indices in increasing order, all in range: either no subtraction goes below zero,
and both builds delete the same; or the debug build panics, and the first index the release build computes by a
wrapped subtraction is the greatest `usize` value, whose successor is zero. -/
theorem removeIndicesR_cases (W : Nat) {α : Type} (is : List Nat) (i : Nat) (xs : List α)
    (srt : is.Pairwise (· ≤ ·)) (ge : ∀ j ∈ is, i ≤ j + 1) (lt : ∀ j ∈ is, j < i + xs.length) :
    ((∀ (k j : Nat), is[k]? = some j → i + k ≤ j) ∧ ∃ ys, removeIndices is i xs = .ok ys ∧
      ∀ wr : Wrapped T, removeIndicesR W wr is i xs = .ret ys) ∨
    (removeIndices is i xs = .error overflow ∧ ∃ (ys : List α) (rest : Wrapped T → List α → KProg T (List α)),
      ∀ wr, removeIndicesR W wr is i xs = wr α (W - 1) ys >>= rest wr) := by
  induction is generalizing i xs with
  | nil => exact .inl ⟨by simp, xs, rfl, fun _ => rfl⟩
  | cons j js ih =>
    have gj := ge j (by simp)
    have lj := lt j (by simp)
    rw [List.pairwise_cons] at srt
    by_cases h1 : j < i
    · refine .inr ⟨by rw [removeIndices, if_pos h1], xs, fun wr ys => removeIndicesR W wr js (i + 1) ys, fun wr => ?_⟩
      rw [removeIndicesR, if_pos h1, wrappingSub_lt h1, show W + j - i = W - 1 by omega]
    · have h2 : j - i < xs.length := by omega
      have hl : (xs.eraseIdx (j - i)).length = xs.length - 1 := List.length_eraseIdx_of_lt h2
      have := ih (i + 1) (xs.eraseIdx (j - i)) srt.2 (fun k hk => by have := srt.1 k hk; omega)
        (fun k hk => by have := lt k (by simp [hk]); omega)
      rcases this with ⟨le, ys, e, e'⟩ | ⟨e, ys, rest, e'⟩
      · refine .inl ⟨fun k l hk => ?_, ys, by rw [removeIndices, if_neg h1, if_pos h2, e],
          fun wr => by rw [removeIndicesR, if_neg h1, if_pos h2, e' wr]⟩
        cases k with
        | zero => simp at hk; omega
        | succ k => have := le k l (by simpa using hk); omega
      · exact .inr ⟨by rw [removeIndices, if_neg h1, if_pos h2, e], ys, rest,
          fun wr => by rw [removeIndicesR, if_neg h1, if_pos h2, e' wr]⟩

theorem sortedIndices_le (is : List Nat) : (sortedIndices is).Pairwise (· ≤ ·) :=
  (List.pairwise_mergeSort (le := fun a b : Nat => decide (a ≤ b))
    (by intro a b c; simp; omega) (by intro a b; simp; omega) is).imp fun h => by simpa using h

theorem sorted_small {is : List Nat} {k : Nat} (srt : is.Pairwise (· ≤ ·)) (ct : k < is.countP (· < k)) :
    ∃ j, is[k]? = some j ∧ j < k := by
  have lk : k < is.length := Nat.lt_of_lt_of_le ct List.countP_le_length
  refine ⟨is[k], List.getElem?_eq_getElem lk, Nat.lt_of_not_le fun le => ?_⟩
  have e : is = is.take k ++ is.drop k := (List.take_append_drop k is).symm
  have z : (is.drop k).countP (· < k) = 0 := by
    rw [List.countP_eq_zero]
    intro x hx
    obtain ⟨i, hi, rfl⟩ := List.getElem_of_mem hx
    rw [List.getElem_drop]
    have hi' : k + i < is.length := by
      rw [List.length_drop] at hi; omega
    have : is[k] ≤ is[k + i] := by
      rcases Nat.eq_zero_or_pos i with rfl | p
      · simp
      · exact List.pairwise_iff_getElem.1 srt k (k + i) lk hi' (by omega)
    simp; omega
  rw [e, List.countP_append, z] at ct
  have := List.countP_le_length (p := fun x => decide (x < k)) (l := is.take k)
  simp at this
  omega

/-- how many of the ignored names are names of one of the first `k` movable joints -/
def namesAmong (h : KHeap T) (arm : Chain) (k : Nat) (c : Constraints) : Nat :=
  c.ignoredJointNames.countP fun a => (arm.movableNodes.take k).any fun n => (h.get n).joint.name == a

theorem countP_nameIndices {h : KHeap T} {ns : List NodeId} (k : Nat) {names : List String} {is : List Nat}
    (e : nameIndices h ns names = .ok is) :
    is.countP (· < k) = names.countP fun a => (ns.take k).any fun n => (h.get n).joint.name == a := by
  induction names generalizing is with
  | nil => cases e; simp
  | cons a as ih =>
    rw [nameIndices] at e
    cases f : ns.findIdx? fun n => (h.get n).joint.name == a with
    | none => simp [f] at e
    | some i =>
      simp only [f] at e
      cases g : nameIndices h ns as with
      | error b => simp [g] at e
      | ok js =>
        simp only [g] at e; cases e
        rw [List.countP_cons, List.countP_cons, ih g]
        congr 1
        rw [List.findIdx?_eq_some_iff_getElem] at f
        obtain ⟨hl, y, z⟩ := f
        have : (decide (i < k)) = (ns.take k).any fun n => (h.get n).joint.name == a := by
          rw [Bool.eq_iff_iff, decide_eq_true_iff, List.any_eq_true]
          constructor
          · intro lt
            exact ⟨ns[i], List.mem_take_iff_getElem.2 ⟨i, by omega, rfl⟩, y⟩
          · rintro ⟨n, hn, e⟩
            obtain ⟨j, hj, rfl⟩ := List.mem_take_iff_getElem.1 hn
            refine Nat.lt_of_not_le fun le => ?_
            have := z j (by omega)
            exact this e
        rw [this]

theorem nameIndices_lt {h : KHeap T} {ns : List NodeId} {names : List String} {is : List Nat}
    (e : nameIndices h ns names = .ok is) : ∀ i ∈ is, i < ns.length := by
  induction names generalizing is with
  | nil => cases e; simp
  | cons a as ih =>
    rw [nameIndices] at e
    cases f : ns.findIdx? fun n => (h.get n).joint.name == a with
    | none => simp [f] at e
    | some i =>
      simp only [f] at e
      cases g : nameIndices h ns as with
      | error b => simp [g] at e
      | ok js =>
        simp only [g] at e; cases e
        intro j hj
        rcases List.mem_cons.1 hj with rfl | hj
        · exact (List.findIdx?_eq_some_iff_getElem.1 f).1
        · exact ih g j hj

theorem nameIndices_known {h : KHeap T} {ns : List NodeId} {names : List String}
    (ok : ∀ b ∈ names, ∃ n ∈ ns, (h.get n).joint.name = b) : ∃ is, nameIndices h ns names = .ok is := by
  induction names with
  | nil => exact ⟨[], rfl⟩
  | cons b bs ih =>
    obtain ⟨is, e⟩ := ih fun b hb => ok b (by simp [hb])
    obtain ⟨n, hn, eb⟩ := ok b (by simp)
    rw [nameIndices]
    cases f : ns.findIdx? fun n => (h.get n).joint.name == b with
    | none =>
      rw [List.findIdx?_eq_none_iff] at f
      have := f n hn; simp [eb] at this
    | some i => exact ⟨i :: is, by simp [e]⟩

variable {s : IkSolver T} {arm : Chain} {target : Iso T} {c : Constraints}

/-- **C77** (an index below zero).  All ignored names are known, the release build sees enough degrees of freedom
left, and for some `k` more than `k` names are names of the first `k` movable joints - too many names (`k = dof`)
or the first joint named twice (`k = 1`) are such cases.  Then the debug build ends with the overflow panic, and
the release build calls nalgebra's column removal with the greatest `usize` value as index. -/
theorem C77_wrapped (W : Nat) (h : KHeap T) (u : h.Unlocked) (w : arm.Wf h)
    (pr : ParentsReady h arm.nodes) (pos : 0 < s.numMaxTry)
    (ok : ∀ b ∈ c.ignoredJointNames, ∃ n ∈ arm.movableNodes, (h.get n).joint.name = b)
    (ge : numConstrained c ≤ wrappingSub W arm.dof c.ignoredJointNames.length)
    (k : Nat) (more : k < namesAmong h arm k c) :
    (∃ h', run (solveWithConstraints s arm target c) h = .panic overflow h') ∧
    ∃ (m : Mat T) (rest : Wrapped T → Mat T → KProg T (Except (KError T) Unit)) (h' : KHeap T), ∀ wr : Wrapped T,
      run (solveWithConstraintsR W wr s arm target c) h = run (wr (List T) (W - 1) m >>= rest wr) h' := by
  obtain ⟨is, ni⟩ := nameIndices_known ok
  obtain ⟨jac, h1, e, o, -, f⟩ := run_jacobian arm h u w pr
  have hl : ∀ col ∈ jac, col.length = 6 := by
    intro col hc
    obtain ⟨i, hi, rfl⟩ := List.getElem_of_mem hc
    exact isColumn_length (f.get (i := i) (by rw [f.length_eq]; exact hi) hi)
  have rr : removeRows (defineOperationalSpace c) 0 0 jac =
      .ok (jac.map (selectFlags (defineOperationalSpace c))) := by
    rw [removeRows_eq _ 0 0 jac (Nat.le_refl _) (by intro col hc; rw [hl col hc]; simp [defineOperationalSpace])]
    simp
  have srt := sortedIndices_le is
  have perm : (sortedIndices is).Perm is := List.mergeSort_perm _ _
  obtain ⟨j, hj, lj⟩ := sorted_small (k := k) srt (by
    rw [perm.countP_eq, countP_nameIndices k ni]; exact more)
  have cs := removeIndicesR_cases (T := T) W (sortedIndices is) 0
    (jac.map (selectFlags (defineOperationalSpace c))) srt (fun _ _ => Nat.zero_le _)
    (fun i hi => by
      rw [List.length_map, ← f.length_eq, Nat.zero_add]
      exact nameIndices_lt ni i (perm.mem_iff.1 hi))
  rcases cs with ⟨le, -⟩ | ⟨e1, m, rest, e2⟩
  · have := le k j hj; omega
  rw [← (C30_count (T := T) c).1] at ge
  obtain ⟨nt, hnt⟩ : ∃ nt, s.numMaxTry = nt + 1 := ⟨s.numMaxTry - 1, by omega⟩
  constructor
  · by_cases lt : arm.dof < c.ignoredJointNames.length
    · exact ⟨h, C28_too_many h u w lt⟩
    · rw [wrappingSub_le (by omega)] at ge
      refine ⟨h1, ?_⟩
      have np : ∀ err orig, nextPositions s (defineOperationalSpace c) (sortedIndices is) arm.dof jac err orig =
          .error overflow := by
        intro err orig
        simp only [nextPositions, rr, Bind.bind, Except.bind, e1]
      have one : run (solveOneLoop s arm target (defineOperationalSpace c) (sortedIndices is)) h =
          .panic overflow h1 := by
        simp only [solveOneLoop, run_bind, run_jointPositions h u arm w, Res.bind_ok, run_endTransform _ _ u, e,
          np, run_ofExcept_error, Res.bind_panic]
      unfold sortedIndices at one
      simp only [solveWithConstraints, solveInternal, run_bind, run_jointPositions h u arm w, Res.bind_ok,
        if_neg lt, if_neg (Nat.not_lt.2 ge), run_ignoredIndices _ _ _ u, ni, hnt, tryLoop, one, Res.bind_panic]
  · suffices ∀ wr : Wrapped T, ∃ r : Mat T → KProg T (Except (KError T) Unit),
        run (solveWithConstraintsR W wr s arm target c) h = run (wr (List T) (W - 1) m >>= r) h1 by
      choose r hr using this
      exact ⟨m, r, h1, hr⟩
    intro wr
    have np : ∀ err orig, ∃ r, nextPositionsR W wr s (defineOperationalSpace c) (sortedIndices is) arm.dof jac err
        orig = wr (List T) (W - 1) m >>= r := by
      intro err orig
      unfold nextPositionsR
      rw [rr]
      simp only [ofExcept_ok_bind, e2 wr, Prog.bind_assoc]
      exact ⟨_, rfl⟩
    have one : ∃ r, run (solveOneLoopR W wr s arm target (defineOperationalSpace c) (sortedIndices is)) h =
        run (wr (List T) (W - 1) m >>= r) h1 := by
      obtain ⟨r, hr⟩ := np (calcPoseDiffWithConstraints target (endPose h arm.nodes) (defineOperationalSpace c))
        (arm.movableNodes.map fun n => (h.get n).joint.position)
      rw [solveOneLoopR, run_bind_ok (run_jointPositions h u arm w), run_bind_ok (run_endTransform _ _ u),
        run_bind_ok e, hr, Prog.bind_assoc]
      exact ⟨_, rfl⟩
    obtain ⟨r, hr⟩ := one
    have two : ∃ r, run (solveInternalR W wr s arm target c) h = run (wr (List T) (W - 1) m >>= r) h1 := by
      rw [solveInternalR, run_bind_ok (run_jointPositions h u arm w)]
      simp only [if_neg (Nat.not_lt.2 ge)]
      rw [run_bind_ok (run_ignoredIndices _ _ _ u)]
      simp only [ni, hnt, tryLoopR]
      unfold sortedIndices at hr
      rw [run_bind_swap hr, Prog.bind_assoc]
      exact ⟨_, rfl⟩
    obtain ⟨r, hr⟩ := two
    rw [solveWithConstraintsR, run_bind_ok (run_jointPositions h u arm w), run_bind_swap hr, Prog.bind_assoc]
    exact ⟨_, rfl⟩

/-- **C77** (names without duplicates).  When no name is given twice and there are at most as many names as degrees
of freedom, no subtraction goes below zero: a solve does the same in both builds. -/
theorem C77_nodup (W : Nat) (wr : Wrapped T) (h : KHeap T) (u : h.Unlocked) (w : arm.Wf h)
    (nd : c.ignoredJointNames.Nodup) (le : c.ignoredJointNames.length ≤ arm.dof) :
    run (solveWithConstraintsR W wr s arm target c) h = run (solveWithConstraints s arm target c) h := by
  have same : ∀ (α : Type) (is : List Nat) (i : Nat) (xs : List α), is.Pairwise (· < ·) → (∀ j ∈ is, i ≤ j) →
      removeIndicesR W wr is i xs = Prog.ofExcept (removeIndices is i xs) := by
    intro α is
    induction is with
    | nil => intro i xs _ _; rfl
    | cons j js ih =>
      intro i xs srt ge
      have h1 : ¬ j < i := by have := ge j (by simp); omega
      rw [List.pairwise_cons] at srt
      unfold removeIndices removeIndicesR
      rw [if_neg h1, if_neg h1]
      split
      · exact ih _ _ srt.2 fun k hk => by have := srt.1 k hk; have := ge j (by simp); omega
      · rfl
  have np : ∀ (ops : List Bool) (is : List Nat) (jac : Mat T) (err orig : List T), is.Pairwise (· < ·) →
      is.length ≤ arm.dof →
      nextPositionsR W wr s ops is arm.dof jac err orig = Prog.ofExcept (nextPositions s ops is arm.dof jac err orig) := by
    intro ops is jac err orig srt le
    unfold nextPositions nextPositionsR
    rw [wrappingSub_le le]
    simp only [ofExcept_bind, same _ is 0 _ srt (fun _ _ => Nat.zero_le _)]
    congr 1; funext jac
    congr 1; funext jac
    split
    · split
      · rfl
      · cases s.nullspaceFunction with
        | some f =>
          simp only [ofExcept_bind]
          congr 1; funext sub
          congr 1; funext sub
          split
          · rfl
          · simp only [ofExcept_bind]; rfl
        | none => simp only [ofExcept_bind]; rfl
    · cases s.la.lu jac err <;> rfl
  have tl : ∀ (ops : List Bool) (is : List Nat) (orig : List T) (left : Nat) (last : Option (V3 T × V3 T)),
      is.Pairwise (· < ·) → is.length ≤ arm.dof →
      tryLoopR W wr s arm target ops is orig left last = tryLoop s arm target ops is orig left last := by
    intro ops is orig left last srt le
    induction left generalizing last with
    | zero => rfl
    | succ left ih =>
      unfold tryLoopR tryLoop solveOneLoopR solveOneLoop
      simp only [np _ _ _ _ _ srt le, ih]
      rfl
  simp only [solveWithConstraintsR, solveWithConstraints, solveInternalR, solveInternal, run_bind,
    run_jointPositions h u arm w, Res.bind_ok, wrappingSub_le le, if_neg (Nat.not_lt.2 le)]
  congr 1
  split
  · rfl
  · simp only [run_bind, run_ignoredIndices _ _ _ u, Res.bind_ok]
    cases ni : nameIndices h arm.movableNodes c.ignoredJointNames with
    | error a => rfl
    | ok is =>
      obtain ⟨srt, l, -⟩ := sortedIndices_spec ni nd
      exact congrArg (run · h) (tl _ (sortedIndices is) _ _ _ srt (by omega))

/-- **C77** (too many names, one of them unknown).  The debug build panics (C28); the release build reports the
first unknown name with `InvalidJointNameError`, and no joint has moved. -/
theorem C77_unknown (W : Nat) (wr : Wrapped T) (h : KHeap T) (u : h.Unlocked) (ol : OneLevel h) (w : arm.Wf h)
    (nd : arm.nodes.Nodup) (re : Restorable h arm) (lt : arm.dof < c.ignoredJointNames.length)
    (fits : c.ignoredJointNames.length + 6 ≤ W)
    (pre post : List String) (a : String) (en : c.ignoredJointNames = pre ++ a :: post)
    (ok : ∀ b ∈ pre, ∃ n ∈ arm.movableNodes, (h.get n).joint.name = b)
    (na : ∀ n ∈ arm.movableNodes, (h.get n).joint.name ≠ a) :
    run (solveWithConstraints s arm target c) h = .panic overflow h ∧
    ∃ h', run (solveWithConstraintsR W wr s arm target c) h = .ok (.error (.invalidJointName a)) h' ∧
      SameBut h h' ∧ ∀ k, posOf h' k = posOf h k := by
  refine ⟨C28_too_many h u w lt, ?_⟩
  obtain ⟨h2, e2, sb, pos⟩ := restore u ol w nd re (Moved.refl _ _).disturbed
  refine ⟨h2, ?_, sb, pos⟩
  have ni := nameIndices_error (post := post) ok na
  rw [← en] at ni
  have six : countTrue (defineOperationalSpace c) ≤ 6 := by
    refine (List.length_filter_le _ _).trans ?_
    simp [defineOperationalSpace]
  have ge : ¬ wrappingSub W arm.dof c.ignoredJointNames.length < countTrue (defineOperationalSpace c) := by
    rw [wrappingSub_lt lt]; omega
  unfold posList at e2
  simp only [solveWithConstraintsR, solveInternalR, run_bind, run_jointPositions h u arm w, Res.bind_ok,
    if_neg ge, run_ignoredIndices _ _ _ u, ni, run_pure, e2]

end K
