import Verif.Lemmas.FlippedCalls
import Verif.Props.Units
/-!
# C98: a mirrored robot behaves as the mirror image
-/

set_option linter.unusedSectionVars false

namespace K
open Prog
variable {T : Type} [Scalar T] {α β : Type} {F : Flip}

namespace Flip

/-! ## lists with signs -/

theorem list_length : ∀ (r : List Bool) (xs : List T), (list r xs).length = xs.length
  | [], [] => rfl
  | [], _ :: _ => rfl
  | _ :: _, [] => rfl
  | b :: bs, x :: xs => by simp only [list, List.length_cons, list_length bs xs]

theorem list_eq_zip : ∀ {r : List Bool} {xs : List T}, xs.length ≤ r.length → list r xs = List.zipWith flipIf r xs
  | [], [], _ => rfl
  | _ :: _, [], _ => rfl
  | k :: ks, x :: xs, h => by
    simp only [list, List.zipWith_cons_cons]
    rw [list_eq_zip (by simpa using h)]
  | [], _ :: _, h => by simp at h

section laws
variable [SignLaws T]

theorem flipIf_mul (b : Bool) (a x : T) : flipIf b a * flipIf b x = a * x := by
  cases b
  · rfl
  · simp only [flipIf, SignLaws.neg_mul, SignLaws.mul_neg, SignLaws.neg_neg]

/-- a product does not notice signs that are changed in both factors -/
theorem matVec (n : Nat) (r : List Bool) (P : Mat T) (v : List T) (e : r.length = v.length) :
    matVec n (List.zipWith (fun b col => col.map (flipIf b)) r P) (list r v) = matVec n P v := by
  unfold K.matVec
  congr 1
  induction r generalizing P v with
  | nil =>
    cases v with
    | nil => simp
    | cons x v => cases e
  | cons b r ih =>
    cases v with
    | nil => cases e
    | cons x v =>
      cases P with
      | nil => rfl
      | cons col P =>
        simp only [list, List.zipWith_cons_cons]
        rw [ih P v (by simpa using e), List.map_map]
        congr 2
        funext a
        exact flipIf_mul b a x

/-! ## one step of inverse kinematics -/

theorem nextPositions {s : IkSolver T} (la : s.la.RowSignFree) {ops : List Bool} (lops : ops.length = 6) {ign : List Nat}
    {dof : Nat} {jac : Mat T} (l6 : ∀ col ∈ jac, col.length = 6) {full : List T} (lf : full.length = 6) (orig : List T) :
    K.nextPositions s ops ign dof (F.matrix jac) (selectFlags ops (list F.rows full)) orig =
      K.nextPositions s ops ign dof jac (selectFlags ops full) orig := by
  obtain ⟨r, hr⟩ : ∃ r, r = selectFlags ops F.rows := ⟨_, rfl⟩
  have lr : r.length = countTrue ops := by rw [hr]; exact selectFlags_length _ _ (by rw [lops]; rfl)
  have sel : ∀ xs : List T, xs.length = 6 → selectFlags ops (list F.rows xs) = list r (selectFlags ops xs) := by
    intro xs lx
    have l : (selectFlags ops xs).length = countTrue ops := selectFlags_length _ _ (by rw [lops, lx])
    rw [list_eq_zip (by rw [lx]; exact Nat.le_refl _), Units.selectFlags_zip _ _ _ _ (by rw [lx]; rfl), ← hr,
      list_eq_zip (by rw [l, lr])]
  obtain ⟨b, hb⟩ : ∃ b, b = selectFlags ops full := ⟨_, rfl⟩
  have lb : b.length = countTrue ops := by rw [hb]; exact selectFlags_length _ _ (by rw [lops, lf])
  have rr : ∀ m : Mat T, (∀ col ∈ m, col.length = 6) → removeRows ops 0 0 m = .ok (m.map (selectFlags ops)) :=
    fun m hm => by
      rw [removeRows_eq _ _ _ _ (Nat.le_refl _) (by simpa [lops] using hm)]; simp
  have l6' : ∀ col ∈ F.matrix jac, col.length = 6 := by
    intro col h
    obtain ⟨x, hx, rfl⟩ := List.mem_map.1 h
    rw [list_length, l6 x hx]
  obtain ⟨J0, hJ0⟩ : ∃ J0, J0 = jac.map (selectFlags ops) := ⟨_, rfl⟩
  have cJ0 : ∀ col ∈ J0, col.length = b.length := by
    intro col h
    rw [hJ0] at h
    obtain ⟨x, hx, rfl⟩ := List.mem_map.1 h
    rw [lb]
    exact selectFlags_length _ _ (by rw [lops, l6 x hx])
  have eJ : (F.matrix jac).map (selectFlags ops) = J0.map (list r) := by
    rw [hJ0, matrix, List.map_map, List.map_map]
    exact List.map_congr_left fun col hc => sel col (l6 col hc)
  unfold K.nextPositions
  rw [rr _ l6, rr _ l6', sel full lf, eJ, ← hJ0, ← hb]
  simp only [Bind.bind, Except.bind]
  rw [removeIndices_map]
  cases e3 : removeIndices ign 0 J0 with
  | error m => rfl
  | ok J =>
    have cJ : ∀ col ∈ J, col.length = b.length := fun col h => cJ0 col (removeIndices_subset _ _ _ _ e3 col h)
    have le : r.length = b.length := by rw [lr, lb]
    simp only [Except.map]
    rw [la.lu r J b cJ le, la.svd r J b cJ le, la.pinv r J fun col h => by rw [cJ col h, le]]
    have ns : ∀ sub n, nullspaceStep n (List.zipWith (fun b col => col.map (flipIf b)) r (s.la.pinv J)) (J.map (list r))
        (list r b) sub = nullspaceStep n (s.la.pinv J) J b sub := by
      intro sub n
      unfold nullspaceStep
      rw [matVec _ _ _ _ le]
      congr 3
      unfold matMul
      rw [List.map_map]
      exact List.map_congr_left fun col hc => matVec _ _ _ _ (by rw [le, cJ col hc])
    simp only [ns]

theorem poseDiff (a b : Iso T) : calcPoseDiff (F.iso a) (F.iso b) = list F.rows (calcPoseDiff a b) := by
  have w : ((F.quat b.rot).rotationTo (F.quat a.rot)).scaledAxis = F.turn (b.rot.rotationTo a.rot).scaledAxis := by
    rw [← scaledAxis]
    simp only [Quat.rotationTo, quat_mul, quat_conj]
  simp only [calcPoseDiff, iso, w, ← vec_sub]
  rfl

theorem lenRot (cs : Constraints) {full : List T} (lf : full.length = 6) :
    targetDiffToLenRotDiff (selectFlags (defineOperationalSpace cs) (list F.rows full)) (defineOperationalSpace cs) =
      (F.vec (targetDiffToLenRotDiff (selectFlags (defineOperationalSpace cs) full) (defineOperationalSpace cs)).1,
        F.turn (targetDiffToLenRotDiff (selectFlags (defineOperationalSpace cs) full) (defineOperationalSpace cs)).2) := by
  have z : ∀ b, flipIf b (0 : T) = 0 := fun b => by cases b <;> simp only [flipIf, SignLaws.neg_zero]
  match full, lf with
  | [a, b, c, d, e, f], _ =>
    obtain ⟨px, py, pz, rx, ry, rz, ig⟩ := cs
    simp only [defineOperationalSpace, rows, list]
    cases px <;> cases py <;> cases pz <;> cases rx <;> cases ry <;> cases rz <;>
      simp only [selectFlags, targetDiffToLenRotDiff, spreadFlags, toV3, vec, turn, List.take, List.drop, z]

theorem reached (s : IkSolver T) (p w : V3 T) : K.reached s (F.vec p) (F.turn w) = K.reached s p w := by
  simp only [K.reached, vec_norm, turn_norm]

end laws

end Flip

namespace Flipped
open K.Flip
variable [SignLaws T]

/-- what a step of inverse kinematics answers -/
inductive FlipDiff (F : Flip) (cs : Constraints) : Except (KError T) (List T) → Except (KError T) (List T) → Prop
  | ok (full : List T) (l : full.length = 6) : FlipDiff F cs (.ok (selectFlags (defineOperationalSpace cs) full))
      (.ok (selectFlags (defineOperationalSpace cs) (list F.rows full)))
  | error : FlipDiff F cs (.error .inverseMatrix) (.error .inverseMatrix)

theorem nextPositions_error {s : IkSolver T} {ops ign dof} {jac : Mat T} {err orig : List T} {e : KError T}
    (h : K.nextPositions s ops ign dof jac err orig = .ok (.error e)) : e = .inverseMatrix := by
  unfold K.nextPositions at h
  simp only [Bind.bind, Except.bind] at h
  split at h
  · cases h
  · split at h
    · cases h
    · split at h
      · split at h
        · cases h
        · split at h
          · split at h
            · cases h
            · split at h
              · cases h
              · split at h
                · cases h
                · split at h <;> cases h
          · split at h <;> cases h
      · split at h
        · cases h
        · cases h; rfl

theorem solveOneLoop {s : IkSolver T} (la : s.la.RowSignFree) (c : Chain) (cs : Constraints) (ign : List Nat)
    (target : Iso T) :
    Flipped F (FlipDiff F cs) (solveOneLoop s c target (defineOperationalSpace cs) ign)
      (solveOneLoop s c (F.iso target) (defineOperationalSpace cs) ign) := by
  refine (jointPositions c).bind fun orig _ e1 => (endTransform c).bind fun t _ e2 =>
    (jacobian c).bind fun m _ ⟨e3, l6⟩ => ?_
  subst e1 e2 e3
  have h := Flip.nextPositions (F := F) la (ops := defineOperationalSpace cs) rfl (ign := ign) (dof := c.dof) l6
    (full := calcPoseDiff target t) rfl orig
  rw [← poseDiff] at h
  show Flipped F _ (Prog.ofExcept (K.nextPositions s (defineOperationalSpace cs) ign c.dof m
      (selectFlags (defineOperationalSpace cs) (calcPoseDiff target t)) orig) >>= _)
    (Prog.ofExcept (K.nextPositions s (defineOperationalSpace cs) ign c.dof (F.matrix m)
      (selectFlags (defineOperationalSpace cs) (calcPoseDiff (F.iso target) (F.iso t))) orig) >>= _)
  rw [h]
  cases e : K.nextPositions s (defineOperationalSpace cs) ign c.dof m
      (selectFlags (defineOperationalSpace cs) (calcPoseDiff target t)) orig with
  | error x => exact .panic x
  | ok y =>
    cases y with
    | error y =>
      cases nextPositions_error e
      exact .ret .error
    | ok xs =>
      refine (setJointPositionsClamped c xs).bind fun _ _ _ => (endTransform c).bind fun t' _ e4 => .ret ?_
      subst e4
      have := FlipDiff.ok (F := F) (cs := cs) (calcPoseDiff target t') rfl
      rwa [← poseDiff] at this

theorem tryLoop {s : IkSolver T} (la : s.la.RowSignFree) (c : Chain) (cs : Constraints) (ign : List Nat)
    (target : Iso T) (orig : List T) (left : Nat) (last : Option (V3 T × V3 T)) :
    Flipped F (To F.result) (tryLoop s c target (defineOperationalSpace cs) ign orig left last)
      (tryLoop s c (F.iso target) (defineOperationalSpace cs) ign orig left
        (last.map fun d => (F.vec d.1, F.turn d.2))) := by
  induction left generalizing last with
  | zero =>
    refine (setJointPositions c orig).bind fun r r' h => ?_
    obtain ⟨rfl, h⟩ := h
    cases r' with
    | error e => exact .ret h.symm
    | ok =>
      refine (expect (A := fun d : V3 T × V3 T => (F.vec d.1, F.turn d.2)) last _).bind fun d _ e => ?_
      subst e
      exact .ret rfl
  | succ left ih =>
    refine (solveOneLoop la c cs ign target).bind fun r r' h => ?_
    cases h with
    | error => exact .ret rfl
    | ok full lf =>
      simp only [lenRot cs lf, Flip.reached]
      split
      · exact (jointPositions c).bind fun xs _ e => by
          subst e
          exact (setJointPositionsClamped c xs).bind fun _ _ _ => .ret rfl
      · exact ih _

theorem jointIndex (name : String) (ns : List NodeId) :
    Flipped F Eq (jointIndex name ns : KProg T _) (jointIndex name ns) := by
  induction ns with
  | nil => exact .ret rfl
  | cons n ns ih =>
    refine (joint n).bind fun j _ e => ?_
    subst e
    show Flipped F _ (if j.name == name then _ else _) (if j.name == name then _ else _)
    split
    · exact .ret rfl
    · exact ih.bind fun _ _ e => by subst e; exact .ret rfl

theorem ignoredIndices (c : Chain) (names : List String) :
    Flipped F (fun r r' => r' = r ∧ ∀ e, r = .error e → ∃ name, e = .invalidJointName name)
      (ignoredIndices c names : KProg T _) (ignoredIndices c names) := by
  induction names with
  | nil => exact .ret ⟨rfl, fun e h => by cases h⟩
  | cons name names ih =>
    refine (jointIndex name c.movableNodes).bind fun o _ e => ?_
    subst e
    cases o with
    | none => exact .ret ⟨rfl, fun e h => by cases h; exact ⟨name, rfl⟩⟩
    | some i =>
      refine ih.bind fun r r' ⟨e, h2⟩ => ?_
      subst e
      cases r' with
      | error e => exact .ret ⟨rfl, fun e' h => by cases h; exact h2 e rfl⟩
      | ok is => exact .ret ⟨rfl, fun e h => by cases h⟩

theorem solveInternal {s : IkSolver T} (la : s.la.RowSignFree) (c : Chain) (cs : Constraints) (target : Iso T) :
    Flipped F (To F.result) (solveInternal s c target cs) (solveInternal s c (F.iso target) cs) := by
  refine (jointPositions c).bind fun orig _ e1 => ?_
  subst e1
  split
  · exact .panic _
  · simp only []
    split
    · exact .ret rfl
    · refine (ignoredIndices c cs.ignoredJointNames).bind fun r r' ⟨e, h4⟩ => ?_
      subst e
      cases r' with
      | error e =>
        obtain ⟨name, rfl⟩ := h4 e rfl
        exact .ret rfl
      | ok is => exact tryLoop la c cs _ target orig s.numMaxTry none

theorem solveWithConstraints {s : IkSolver T} (la : s.la.RowSignFree) (c : Chain) (cs : Constraints) (target : Iso T) :
    Flipped F (To F.result) (solveWithConstraints s c target cs) (solveWithConstraints s c (F.iso target) cs) := by
  refine (jointPositions c).bind fun orig _ e1 => (solveInternal la c cs target).bind fun r r' h => ?_
  subst e1 h
  cases r with
  | ok => exact .ret rfl
  | error e =>
    refine (setJointPositions c orig).bind fun r r' h' => ?_
    obtain ⟨rfl, h⟩ := h'
    cases r' with
    | ok => exact .ret rfl
    | error e => exact .ret h.symm

theorem call (c : Call T β) (free : c.SignFree) : Flipped F (c.AnswerMirrored F) c.prog (c.mirrored F).prog := by
  cases c with
  | newNode j => exact (new j).imp fun _ _ e => e.symm
  | cloneChain fuel c => exact (clone c fuel).imp fun _ _ e => e.symm
  | setParent n p => exact (setParent n p).imp fun _ _ e => e.symm
  | removeParent n p => exact (removeParent n p).imp fun _ _ e => e.symm
  | setMimicParent n p m => exact (setMimicParent n p m).imp fun _ _ e => e.symm
  | setLink n l => exact (setLink n l).imp fun _ _ e => e.symm
  | setOrigin n t => exact (setOrigin n t).imp fun _ _ e => e.symm
  | setJointPosition n x => exact (setJointPosition n x).imp fun _ _ e => e.1
  | setJointPositionClamped n x => exact (setJointPositionClamped n x).imp fun _ _ e => e.symm
  | setJointPositionUnchecked n x => exact (setJointPositionUnchecked n x).imp fun _ _ e => e.symm
  | joint n => exact joint n
  | jointPosition n => exact (jointPosition n).imp fun _ _ e => e.symm
  | parent n => exact (parent n).imp fun _ _ e => e.symm
  | mimicParent n => exact (mimicParent n).imp fun _ _ e => e.symm
  | children n => exact (children n).imp fun _ _ e => e.symm
  | link n => exact link n
  | isRoot n => exact (isRoot n).imp fun _ _ e => e.symm
  | isEnd n => exact (isEnd n).imp fun _ _ e => e.symm
  | origin n => exact origin n
  | worldTransform n => exact worldTransform n
  | worldVelocity n => exact worldVelocity n
  | iterAncestors fuel n => exact (ancestors fuel (some n)).imp fun _ _ e => e.symm
  | iterDescendants fuel n => exact (descendants fuel [n]).imp fun _ _ e => e.symm
  | fromNodes ns => exact (fromNodes ns).imp fun _ _ e => e.symm
  | fromRoot fuel n => exact (fromRoot fuel n).imp fun _ _ e => e.symm
  | fromEnd fuel n => exact (fromEnd fuel n).imp fun _ _ e => e.symm
  | fromEndToRoot fuel e r => exact (fromEndToRoot fuel e r).imp fun _ _ e => e.symm
  | chainSetOrigin c t => exact (chainSetOrigin c t).imp fun _ _ e => e.symm
  | chainOrigin c => exact chainOrigin c
  | iterJoints c => exact iterJoints c
  | iterLinks c => exact iterLinks c
  | find c name => exact (find c name).imp fun _ _ e => e.symm
  | jointPositions c => exact (jointPositions c).imp fun _ _ e => e.symm
  | setJointPositions c xs => exact (setJointPositions c xs).imp fun _ _ e => e.1
  | setJointPositionsClamped c xs => exact (setJointPositionsClamped c xs).imp fun _ _ e => e.symm
  | setJointPositionsUnchecked c xs => exact (setJointPositionsUnchecked c xs).imp fun _ _ e => e.symm
  | updateTransforms c => exact updateTransforms c
  | updateVelocities c => exact updateVelocities c
  | updateLinkTransforms c => exact (updateLinkTransforms c).imp fun _ _ e => e.symm
  | tryNew c => exact (tryNew c).imp fun _ _ e => e.symm
  | endTransform c => exact endTransform c
  | display fuel c => exact display c fuel
  | jacobian c => exact (jacobian c).imp fun _ _ e => e.1
  | centerOfMass c => exact centerOfMass c
  | solve s c target cs => exact solveWithConstraints free c cs target

theorem client {p q : Client T α} (h : p.Mirrored F q) : Flipped F Eq p.prog q.prog := by
  induction h with
  | done a => exact .ret rfl
  | call c k k' free next ih => exact (call c free).bind ih

/-- threads that do the same -/
inductive All (F : Flip) : List (KProg T α) → List (KProg T α) → Prop
  | nil : All F [] []
  | cons {p q ps qs} (h : Flipped F Eq p q) (t : All F ps qs) : All F (p :: ps) (q :: qs)

theorem All.get {ps qs : List (KProg T α)} (a : All F ps qs) (i : Nat) {p : KProg T α} (e : ps[i]? = some p) :
    ∃ q, qs[i]? = some q ∧ Flipped F Eq p q := by
  induction a generalizing i with
  | nil => simp at e
  | cons h t ih =>
    cases i with
    | zero => simp at e; subst e; exact ⟨_, rfl, h⟩
    | succ i => exact ih i (by simpa using e)

theorem All.set {ps qs : List (KProg T α)} (a : All F ps qs) (i : Nat) {p q : KProg T α} (h : Flipped F Eq p q) :
    All F (ps.set i p) (qs.set i q) := by
  induction a generalizing i with
  | nil => exact .nil
  | cons h' t ih =>
    cases i with
    | zero => exact .cons h t
    | succ i => exact .cons h' (ih i)

end Flipped

/-! ## The theorems -/

variable [SignLaws T]

/-- **C98.** A mirrored robot behaves as the mirror image: a client that makes the same calls in the mirror, on the
mirrored robot, has the same outcome - the same result, the same panic, the same lock it waits for - and leaves the
mirror image of the memory. -/
theorem C98_sequential {p q : Client T α} (same : p.Mirrored F q) (h : KHeap T) :
    run q.prog (F.heap h) = (run p.prog h).mirrored F := by
  have := (Flipped.client same).outcome h
  cases e : run p.prog h <;> cases e' : run q.prog (F.heap h) <;> rw [e, e'] at this <;>
    simp only [FlipOutcome] at this
  · obtain ⟨rfl, rfl⟩ := this; rfl
  · obtain ⟨rfl, rfl⟩ := this; rfl
  · obtain ⟨rfl, rfl⟩ := this; rfl
  · rfl

/-- **C98**, one call: in the mirror it gives the mirror image of the answer. -/
theorem C98_call (c : Call T β) (free : c.SignFree) (h : KHeap T) :
    (∀ a g, run c.prog h = .ok a g → ∃ a', run (c.mirrored F).prog (F.heap h) = .ok a' (F.heap g) ∧
      c.AnswerMirrored F a a') ∧
    (∀ m g, run c.prog h = .panic m g → run (c.mirrored F).prog (F.heap h) = .panic m (F.heap g)) ∧
    (∀ n g, run c.prog h = .blocked n g → run (c.mirrored F).prog (F.heap h) = .blocked n (F.heap g)) ∧
    (run c.prog h = .diverged → run (c.mirrored F).prog (F.heap h) = .diverged) := by
  have := (Flipped.call (F := F) c free).outcome h
  refine ⟨fun a g x => ?_, fun m g x => ?_, fun n g x => ?_, fun x => ?_⟩ <;> rw [x] at this <;>
    cases e' : run (c.mirrored F).prog (F.heap h) <;> rw [e'] at this <;>
    simp only [FlipOutcome] at this
  · exact ⟨_, by rw [this.2], this.1⟩
  · rw [this.1, this.2]
  · rw [this.1, this.2]

/-- **C98**, threads: whatever threads can do - with any interleaving, nodes being freed at any moment - threads that
make the calls in the mirror can do, with the same results and panics, and each waiting for the same lock. -/
theorem C98_threads (pq : List (Client T α × Client T α)) (same : ∀ x ∈ pq, x.1.Mirrored F x.2) (h : KHeap T)
    (d : Config (NodeImpl T) α) (st : DSteps ⟨h, pq.map fun x => x.1.prog⟩ d) :
    ∃ d', DSteps ⟨F.heap h, pq.map fun x => x.2.prog⟩ d' ∧ d'.heap = F.heap d.heap ∧
      (∀ (i : Nat) a, d.threads[i]? = some (Prog.ret a) → d'.threads[i]? = some (Prog.ret a)) ∧
      (∀ (i : Nat) m, d.threads[i]? = some (Prog.panic m) → d'.threads[i]? = some (Prog.panic m)) ∧
      ∀ (i : Nat) n k, d.threads[i]? = some (Prog.lock n k) → ∃ k, d'.threads[i]? = some (Prog.lock n k) := by
  suffices ∃ ts, DSteps ⟨F.heap h, pq.map fun x => x.2.prog⟩ ⟨F.heap d.heap, ts⟩ ∧ Flipped.All F d.threads ts by
    obtain ⟨ts, a, b⟩ := this
    refine ⟨_, a, rfl, fun i x e => ?_, fun i m e => ?_, fun i n k e => ?_⟩
    all_goals
      obtain ⟨q, e', s⟩ := b.get i e
      cases s
    · rename_i q; subst q; exact e'
    · exact e'
    · exact ⟨_, e'⟩
  induction st with
  | refl =>
    refine ⟨_, .refl _, ?_⟩
    induction pq with
    | nil => exact .nil
    | cons x pq ih =>
      exact .cons (Flipped.client (same x (by simp))) (ih fun y hy => same y (List.mem_cons_of_mem _ hy))
  | @tail d e _ s ih =>
    obtain ⟨ts, a, b⟩ := ih
    cases s with
    | free G => exact ⟨ts, a.tail (by rw [F.heap_free]; exact DStep.free ⟨F.heap d.heap, ts⟩ G), b⟩
    | thread s =>
      cases s with
      | mk i p p' h' hi hs =>
        obtain ⟨q, e', s⟩ := b.get i hi
        obtain ⟨q', x, y⟩ := s.step _ _ hs
        exact ⟨ts.set i q', a.tail (.thread (Step.mk ⟨F.heap d.heap, ts⟩ i q q' (F.heap h') e' x)), b.set i y⟩

end K
