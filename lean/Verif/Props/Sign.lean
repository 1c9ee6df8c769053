import Verif.Lemmas.Signed
import Verif.Props.TargetEx
import Verif.Props.FlipEx
/-!
# C109: the sign of a quaternion is not seen

A unit quaternion and its negative are the same orientation.  Whichever of the two a robot is described with, the API
does the same.
-/

namespace K
open Prog

section any
variable {T : Type} [Scalar T] [SignLaws T] {α β : Type}

/-- **C109.** The sign of a quaternion is not seen: on a robot described with either sign of the orientations, a client
that makes the same calls with either sign has the same outcome - the same result, the same panic, the same lock it waits
for - and leaves the memory the same but for signs. -/
theorem C109_sequential {p q : Client T α} (same : p.EitherSign q) {h g : KHeap T} (r : EitherSign h g) :
    (∀ a h', run p.prog h = .ok a h' → ∃ g', run q.prog g = .ok a g' ∧ EitherSign h' g') ∧
    (∀ m h', run p.prog h = .panic m h' → ∃ g', run q.prog g = .panic m g' ∧ EitherSign h' g') ∧
    (∀ n h', run p.prog h = .blocked n h' → ∃ g', run q.prog g = .blocked n g' ∧ EitherSign h' g') ∧
    (run p.prog h = .diverged → run q.prog g = .diverged) := by
  have := (Signed.client same).outcome r
  refine ⟨fun a h' x => ?_, fun m h' x => ?_, fun n h' x => ?_, fun x => ?_⟩ <;> rw [x] at this <;>
    cases e : run q.prog g <;> rw [e] at this <;> simp only [SignOutcome] at this
  · obtain ⟨rfl, y⟩ := this; exact ⟨_, rfl, y⟩
  · obtain ⟨rfl, y⟩ := this; exact ⟨_, rfl, y⟩
  · obtain ⟨rfl, y⟩ := this; exact ⟨_, rfl, y⟩

/-- **C109**, one call: it gives the same answer, with either sign of the orientations in it. -/
theorem C109_call {c c' : Call T β} (same : c.EitherSign c') {h g : KHeap T} (r : EitherSign h g) :
    (∀ a h', run c.prog h = .ok a h' → ∃ a' g', run c'.prog g = .ok a' g' ∧ c.SignAnswer a a' ∧ EitherSign h' g') ∧
    (∀ m h', run c.prog h = .panic m h' → ∃ g', run c'.prog g = .panic m g' ∧ EitherSign h' g') ∧
    (∀ n h', run c.prog h = .blocked n h' → ∃ g', run c'.prog g = .blocked n g' ∧ EitherSign h' g') ∧
    (run c.prog h = .diverged → run c'.prog g = .diverged) := by
  have := (Signed.call same).outcome r
  refine ⟨fun a h' x => ?_, fun m h' x => ?_, fun n h' x => ?_, fun x => ?_⟩ <;> rw [x] at this <;>
    cases e : run c'.prog g <;> rw [e] at this <;> simp only [SignOutcome] at this
  · exact ⟨_, _, rfl, this.1, this.2⟩
  · obtain ⟨rfl, y⟩ := this; exact ⟨_, rfl, y⟩
  · obtain ⟨rfl, y⟩ := this; exact ⟨_, rfl, y⟩

/-- **C109**, threads: whatever threads can do - with any interleaving, nodes being freed at any moment - threads that
make the calls with either sign can do, with the same results and panics, and each waiting for the same lock. -/
theorem C109_threads (pq : List (Client T α × Client T α)) (same : ∀ x ∈ pq, x.1.EitherSign x.2) {h g : KHeap T}
    (r : EitherSign h g) (d : Config (NodeImpl T) α) (st : DSteps ⟨h, pq.map fun x => x.1.prog⟩ d) :
    ∃ d', DSteps ⟨g, pq.map fun x => x.2.prog⟩ d' ∧ EitherSign d.heap d'.heap ∧
      (∀ (i : Nat) a, d.threads[i]? = some (Prog.ret a) → d'.threads[i]? = some (Prog.ret a)) ∧
      (∀ (i : Nat) m, d.threads[i]? = some (Prog.panic m) → d'.threads[i]? = some (Prog.panic m)) ∧
      ∀ (i : Nat) n k, d.threads[i]? = some (Prog.lock n k) → ∃ k, d'.threads[i]? = some (Prog.lock n k) := by
  suffices ∃ k ts, DSteps ⟨g, pq.map fun x => x.2.prog⟩ ⟨k, ts⟩ ∧ EitherSign d.heap k ∧ Signed.All d.threads ts by
    obtain ⟨k, ts, a, x, b⟩ := this
    refine ⟨_, a, x, fun i x e => ?_, fun i m e => ?_, fun i n k e => ?_⟩
    all_goals
      obtain ⟨q, e', s⟩ := b.get i e
      cases s
    · rename_i q; subst q; exact e'
    · exact e'
    · exact ⟨_, e'⟩
  induction st with
  | refl =>
    refine ⟨_, _, .refl _, r, ?_⟩
    induction pq with
    | nil => exact .nil
    | cons x pq ih =>
      exact .cons (Signed.client (same x (by simp))) (ih fun y hy => same y (List.mem_cons_of_mem _ hy))
  | @tail d e _ s ih =>
    obtain ⟨k, ts, a, r, b⟩ := ih
    cases s with
    | free F => exact ⟨_, ts, a.tail (DStep.free ⟨k, ts⟩ F), r.free F, b⟩
    | thread s =>
      cases s with
      | mk i p p' h' hi hs =>
        obtain ⟨q, e', s⟩ := b.get i hi
        obtain ⟨q', k', x, y, z⟩ := s.step r hs
        exact ⟨k', ts.set i q', a.tail (.thread (Step.mk ⟨k, ts⟩ i q q' k' e' x)), y, b.set i z⟩

/-- **C109**, threads, the other way round: with the other signs threads can do nothing else. -/
theorem C109_threads_back (pq : List (Client T α × Client T α)) (same : ∀ x ∈ pq, x.1.EitherSign x.2) {h g : KHeap T}
    (r : EitherSign h g) (d' : Config (NodeImpl T) α) (st : DSteps ⟨g, pq.map fun x => x.2.prog⟩ d') :
    ∃ d, DSteps ⟨h, pq.map fun x => x.1.prog⟩ d ∧ EitherSign d.heap d'.heap ∧
      (∀ (i : Nat) a, d'.threads[i]? = some (Prog.ret a) → d.threads[i]? = some (Prog.ret a)) ∧
      (∀ (i : Nat) m, d'.threads[i]? = some (Prog.panic m) → d.threads[i]? = some (Prog.panic m)) ∧
      ∀ (i : Nat) n k, d'.threads[i]? = some (Prog.lock n k) → ∃ k, d.threads[i]? = some (Prog.lock n k) := by
  suffices ∃ k ts, DSteps ⟨h, pq.map fun x => x.1.prog⟩ ⟨k, ts⟩ ∧ EitherSign k d'.heap ∧ Signed.All ts d'.threads by
    obtain ⟨k, ts, a, x, b⟩ := this
    refine ⟨_, a, x, fun i x e => ?_, fun i m e => ?_, fun i n k e => ?_⟩
    all_goals
      obtain ⟨q, e', s⟩ := b.back i e
      cases s
    · rename_i q; subst q; exact e'
    · exact e'
    · exact ⟨_, e'⟩
  induction st with
  | refl =>
    refine ⟨_, _, .refl _, r, ?_⟩
    induction pq with
    | nil => exact .nil
    | cons x pq ih =>
      exact .cons (Signed.client (same x (by simp))) (ih fun y hy => same y (List.mem_cons_of_mem _ hy))
  | @tail d e _ s ih =>
    obtain ⟨k, ts, a, r, b⟩ := ih
    cases s with
    | free F => exact ⟨_, ts, a.tail (DStep.free ⟨k, ts⟩ F), r.free F, b⟩
    | thread s =>
      cases s with
      | mk i p p' h' hi hs =>
        obtain ⟨q, e', s⟩ := b.back i hi
        obtain ⟨q', k', x, y, z⟩ := s.back r hs
        exact ⟨k', ts.set i q', a.tail (.thread (Step.mk ⟨k, ts⟩ i q q' k' e' x)), y, b.set i z⟩

end any

/-! ## Either sign is the same orientation, and nothing else is -/

theorem C109_same_orientation {t t' : Iso ℝ} (u : t.rot.IsUnit) (u' : t'.rot.IsUnit) :
    t.EitherSign t' ↔ t'.trans = t.trans ∧ ∀ v, t'.rot.rotate v = t.rot.rotate v := by
  constructor
  · intro r
    exact ⟨r.trans_eq, r.rotate⟩
  · rintro ⟨et, er⟩
    rcases t with ⟨p, ⟨w, x, y, z⟩⟩
    rcases t' with ⟨p', ⟨w', x', y', z'⟩⟩
    simp only at et er u u'
    subst et
    have e1 := er ⟨1, 0, 0⟩
    have e2 := er ⟨0, 1, 0⟩
    have e3 := er ⟨0, 0, 1⟩
    simp only [Quat.rotate, Quat.vec, V3.cross, V3.scale, V3.add, V3.mk.injEq] at e1 e2 e3
    simp only [Quat.IsUnit] at u u'
    obtain ⟨a1, b1, c1⟩ := e1
    obtain ⟨a2, b2, c2⟩ := e2
    obtain ⟨a3, b3, c3⟩ := e3
    have xx : x' * x' = x * x := by linarith
    have yy : y' * y' = y * y := by linarith
    have zz : z' * z' = z * z := by linarith
    have ww : w' * w' = w * w := by linarith
    have xy : x' * y' = x * y := by linarith
    have xz : x' * z' = x * z := by linarith
    have yz : y' * z' = y * z := by linarith
    have wx : w' * x' = w * x := by linarith
    have wy : w' * y' = w * y := by linarith
    have wz : w' * z' = w * z := by linarith
    have key : ∀ s : ℝ, (s = 1 ∨ s = -1) → w' = s * w → x' = s * x → y' = s * y → z' = s * z →
        Iso.EitherSign (⟨p', ⟨w, x, y, z⟩⟩ : Iso ℝ) ⟨p', ⟨w', x', y', z'⟩⟩ := by
      rintro s (rfl | rfl) rfl rfl rfl rfl
      · left; simp
      · right; simp [Iso.otherSign]
    have pick : ∀ a a' : ℝ, a ≠ 0 → a' * a' = a * a → ∃ s : ℝ, (s = 1 ∨ s = -1) ∧ a' = s * a ∧
        ∀ b b' : ℝ, a' * b' = a * b → b' = s * b := by
      intro a a' ne sq
      rcases mul_self_eq_mul_self_iff.1 sq with rfl | rfl
      · exact ⟨1, .inl rfl, by ring, fun b b' e => by rw [one_mul]; exact mul_left_cancel₀ ne e⟩
      · exact ⟨-1, .inr rfl, by ring, fun b b' e => mul_left_cancel₀ ne (by linarith)⟩
    by_cases hw : w = 0
    · by_cases hx : x = 0
      · by_cases hy : y = 0
        · have hz : z ≠ 0 := by
            rintro rfl
            subst hw hx hy
            norm_num at u
          obtain ⟨s, hs, e, f⟩ := pick z z' hz zz
          exact key s hs (f _ _ (by linarith)) (f _ _ (by linarith)) (f _ _ (by linarith)) e
        · obtain ⟨s, hs, e, f⟩ := pick y y' hy yy
          exact key s hs (f _ _ (by linarith)) (f _ _ (by linarith)) e (f _ _ (by linarith))
      · obtain ⟨s, hs, e, f⟩ := pick x x' hx xx
        exact key s hs (f _ _ (by linarith)) e (f _ _ (by linarith)) (f _ _ (by linarith))
    · obtain ⟨s, hs, e, f⟩ := pick w w' hw ww
      exact key s hs e (f _ _ (by linarith)) (f _ _ (by linarith)) (f _ _ (by linarith))

/-! ## Inverse kinematics with the orientation constrained -/

/-- away from a half turn no sign shows in the error -/
theorem poseDiff_eitherSign {t t' X X' : Iso ℝ} (r : t.EitherSign t') (x : X.EitherSign X')
    (n : ¬ HalfTurn X.rot t.rot) (ops : List Bool) :
    calcPoseDiffWithConstraints t' X' ops = calcPoseDiffWithConstraints t X ops := by
  have move : ∀ t : Iso ℝ, calcPoseDiffWithConstraints t X.otherSign ops =
      calcPoseDiffWithConstraints t.otherSign X ops := by
    intro t
    have e : X.otherSign.rot.rotationTo t.rot = X.rot.rotationTo t.otherSign.rot := by
      ext <;> simp only [Quat.rotationTo, Iso.otherSign, Quat.mul, Quat.conj] <;> ring
    simp only [calcPoseDiffWithConstraints, calcPoseDiff, e]
    rfl
  have h : calcPoseDiffWithConstraints t' X ops = calcPoseDiffWithConstraints t X ops := by
    rcases r with rfl | rfl
    · rfl
    · exact poseDiff_otherSign _ _ n _
  rcases x with rfl | rfl
  · exact h
  · rw [move]
    rcases r with rfl | rfl
    · exact poseDiff_otherSign _ _ n _
    · rw [Iso.otherSign_otherSign]

/-- **C109, inverse kinematics with any constraint.**  When no placement of the arm inside its limits is exactly half a
turn from the target, a solve does the same with either sign of the orientations of the robot and of the target: the same
answer, and the same final state but for signs; whatever the linear solver, the nullspace function, the constraint and
the number of tries.  At a half turn it can differ (`C109_half_turn`). -/
theorem C109_solve (s : IkSolver ℝ) (arm : Chain) (c : Constraints) {t t' : Iso ℝ} (r : t.EitherSign t') {h g : KHeap ℝ}
    (e : EitherSign h g) (u : h.Unlocked) (w : arm.Wf h) (p : ProperLimits h) (o : NoneOutside h arm.movableNodes)
    (far : ∀ k X, SameBut h k → NoneOutside k arm.movableNodes → run arm.endTransform k = .ok X k →
      ¬ HalfTurn X.rot t.rot) :
    (∀ a h', run (solveWithConstraints s arm t c) h = .ok a h' →
      ∃ g', run (solveWithConstraints s arm t' c) g = .ok a g' ∧ EitherSign h' g') ∧
    (∀ m h', run (solveWithConstraints s arm t c) h = .panic m h' →
      ∃ g', run (solveWithConstraints s arm t' c) g = .panic m g' ∧ EitherSign h' g') := by
  have one : ∀ (ign : List Nat) (k k' : KHeap ℝ), SameBut h k → NoneOutside k arm.movableNodes → EitherSign k k' →
      SignOutcome Signed.Id (run (solveOneLoop s arm t (defineOperationalSpace c) ign) k)
        (run (solveOneLoop s arm t' (defineOperationalSpace c) ign) k') := by
    intro ign k k' sk ok ek
    have uk := sk.unlocked u
    have wk := sk.chainWf w
    refine ((Signed.jointPositions arm).outcome ek).bind fun ps' ps k1 k1' e1 x1 ek1 => ?_
    rw [run_jointPositions k uk arm wk] at e1
    injection e1 with e1 e1'
    subst x1 e1'
    refine ((Signed.endTransform arm).outcome ek1).bind fun X X' k2 k2' e2 x2 ek2 => ?_
    have e2' := e2
    rw [run_endTransform _ _ uk] at e2'
    injection e2' with _ e2'
    subst e2'
    refine ((Signed.jacobian arm).outcome ek2).bind fun jac' jac k3 k3' e3 x3 ek3 => ?_
    subst x3
    obtain ⟨ow, -⟩ := jacobian_ok arm k k3 uk jac e3
    have u3 := ow.unlocked uk
    rw [poseDiff_eitherSign r x2 (far k X sk ok e2)]
    refine ((Signed.ofExcept _).outcome ek3).bind fun y' y k4 k4' e4 x4 ek4 => ?_
    have : k4 = k3 := by
      revert e4
      cases nextPositions s (defineOperationalSpace c) ign arm.dof jac
        (calcPoseDiffWithConstraints t X (defineOperationalSpace c)) ps with
      | error m => intro e4; cases e4
      | ok z => intro e4; cases e4; rfl
    subst this x4
    cases y with
    | error e' => exact ⟨rfl, ek4⟩
    | ok qs =>
      have m := moved_clamp_chain (h' := k4) wk qs
      have s5 := sk.trans (ow.moved.sameBut.trans m.sameBut)
      have o5 : NoneOutside (clampAll (arm.movableNodes.zip qs) k4) arm.movableNodes :=
        noneOutside_clampAll _ _ _ (properLimits_sameBut (sk.trans ow.moved.sameBut) p)
          (noneOutside_congr ow.moved.sameBut ow.position ok)
      refine ((Signed.setJointPositionsClamped arm qs).outcome ek4).bind fun _ _ k5 k5' e5 _ ek5 => ?_
      rw [run_setJointPositionsClamped _ _ _ u3] at e5
      injection e5 with _ e5
      subst e5
      refine ((Signed.endTransform arm).outcome ek5).bind fun Y Y' k6 k6' e6 x6 ek6 => ?_
      have e6' := e6
      rw [run_endTransform _ _ (m.unlocked u3)] at e6'
      injection e6' with _ e6'
      subst e6'
      exact ⟨by rw [Signed.Id, poseDiff_eitherSign r x6 (far _ Y s5 o5 e6)], ek6⟩
  have loop : ∀ (ign : List Nat) (orig : List ℝ) (left : Nat) (last : Option (V3 ℝ × V3 ℝ)) (k k' : KHeap ℝ),
      SameBut h k → NoneOutside k arm.movableNodes → EitherSign k k' →
      SignOutcome Signed.Id (run (tryLoop s arm t (defineOperationalSpace c) ign orig left last) k)
        (run (tryLoop s arm t' (defineOperationalSpace c) ign orig left last) k') := by
    intro ign orig left
    induction left with
    | zero =>
      intro last k k' sk ok ek
      refine ((Signed.setJointPositions arm orig).outcome ek).bind fun x' x k1 k1' _ ex ek1 => ?_
      subst ex
      cases x with
      | error e => exact ⟨rfl, ek1⟩
      | ok u =>
        refine Signed.outcome (Q := Signed.Id) ?_ ek1
        exact (Signed.expectSame last _).seq fun _ => .ret rfl
    | succ left ih =>
      intro last k k' sk ok ek
      have uk := sk.unlocked u
      have wk := sk.chainWf w
      refine (one ign k k' sk ok ek).bind fun x' x k1 k1' e1 ex ek1 => ?_
      subst ex
      cases x with
      | error e => exact ⟨rfl, ek1⟩
      | ok d =>
        have m := solveOneLoop_moved _ _ _ _ _ _ _ uk wk _ e1
        dsimp only
        split
        · refine Signed.outcome (Q := Signed.Id) ?_ ek1
          exact (Signed.jointPositions arm).seq fun xs =>
            (Signed.setJointPositionsClamped arm xs).seq fun _ => .ret rfl
        · exact ih _ k1 k1' (sk.trans m.sameBut) (solveOneLoop_noneOutside uk wk (properLimits_sameBut sk p) ok e1) ek1
  have inner : ∀ g, EitherSign h g →
      SignOutcome Signed.Id (run (solveInternal s arm t c) h) (run (solveInternal s arm t' c) g) := by
    intro g e
    refine ((Signed.jointPositions arm).outcome e).bind fun ps' ps k1 k1' e1 x1 ek1 => ?_
    rw [run_jointPositions h u arm w] at e1
    injection e1 with e1 e1'
    subst x1 e1'
    split
    · exact ⟨rfl, ek1⟩
    · dsimp only
      split
      · exact ⟨rfl, ek1⟩
      · refine ((Signed.ignoredIndices arm _).outcome ek1).bind fun is' is k2 k2' e2 x2 ek2 => ?_
        rw [run_ignoredIndices _ _ _ u] at e2
        injection e2 with _ e2
        subst x2 e2
        cases is with
        | error e => exact ⟨rfl, ek2⟩
        | ok is => exact loop _ _ _ _ _ _ (SameBut.refl h) o ek2
  have all : SignOutcome Signed.Id (run (solveWithConstraints s arm t c) h)
      (run (solveWithConstraints s arm t' c) g) := by
    refine ((Signed.jointPositions arm).outcome e).bind fun ps' ps k1 k1' e1 x1 ek1 => ?_
    rw [run_jointPositions h u arm w] at e1
    injection e1 with e1 e1'
    subst x1 e1'
    refine (inner _ ek1).bind fun x' x k2 k2' _ ex ek2 => ?_
    subst ex
    cases x with
    | ok u => exact ⟨rfl, ek2⟩
    | error e =>
      refine ((Signed.setJointPositions arm ps).outcome ek2).bind fun y' y k3 k3' _ ey ek3 => ?_
      subst ey
      cases y <;> exact ⟨rfl, ek3⟩
  constructor
  all_goals
    intro a h' x
    rw [x] at all
    cases e' : run (solveWithConstraints s arm t' c) g <;> rw [e'] at all <;> simp only [SignOutcome] at all
    obtain ⟨rfl, y⟩ := all
    exact ⟨_, rfl, y⟩

/-- **C109, a half turn.**  With the orientation constrained, at half a turn the sign is seen: an arm that turns about z,
asked for half a turn about z, turns one way with the one sign of the target and the other way with the other. -/
theorem C109_half_turn : EitherSign (swing 0) (swing 0) ∧ turned.EitherSign turned.otherSign ∧
    ∃ h g, run (solveWithConstraints fullStep swingArm turned onlyTurn) (swing 0) = .ok (.ok ()) h ∧
      run (solveWithConstraints fullStep swingArm turned.otherSign onlyTurn) (swing 0) = .ok (.ok ()) g ∧
      ¬ EitherSign h g := by
  obtain ⟨-, -, h, g, a, b, x, y⟩ := C104_half_turn
  refine ⟨.refl _, .inr rfl, h, g, a, b, fun r => ?_⟩
  obtain ⟨j, l, e, ⟨o, w, e', -⟩, -⟩ := r.node 0
  rw [e, e'] at y
  have := x.symm.trans y
  linarith [Real.pi_pos]

/-! ## Concrete cases -/

noncomputable section

/-- the robot with the other sign of the orientation of its first joint -/
def signedAt (h : KHeap ℝ) : KHeap ℝ :=
  h.modify 0 fun s => { s with joint := { s.joint with origin := s.joint.origin.otherSign } }

theorem C109_signedAt (h : KHeap ℝ) : EitherSign h (signedAt h) := by
  refine ⟨fun n => ?_, rfl, rfl, rfl⟩
  by_cases e : n = 0
  · subst e
    exact ⟨_, _, rfl, ⟨_, _, rfl, .inr rfl, BothOrNone.refl (fun _ => .inl rfl) _⟩, BothOrNone.refl .refl _⟩
  · simp only [signedAt, Heap.modify, if_neg e]
    exact .refl _

/-- the sign is seen in what is reported: with the other sign in the first joint, the end of the arm is reported with the
other quaternion -/
theorem C109_reported : ∃ X, run swingArm.endTransform (swing 0) = .ok X (swing 0) ∧
    run swingArm.endTransform (signedAt (swing 0)) = .ok X.otherSign (signedAt (swing 0)) ∧ X.otherSign ≠ X := by
  refine ⟨_, run_endTransform _ _ fun _ => rfl, ?_, ?_⟩
  · rw [run_endTransform _ _ fun _ => rfl]
    congr 1
    simp [endPose, swingArm, signedAt, swing, Heap.modify, NodeImpl.fresh, Joint.new, Joint.localTransform,
      Joint.jointTransform, Iso.mul, Iso.one, Quat.mul, Quat.one, Quat.fromAxisAngle, Quat.rotate, Quat.vec, V3.cross,
      V3.scale, V3.add, V3.zero, atX, Scalar.cos, Scalar.sin, Iso.otherSign]
  · rw [swing_pose]
    intro e
    have := congrArg (fun t : Iso ℝ => t.rot.w) e
    norm_num [Iso.otherSign, atX, Quat.one] at this

/-- mount the tip, move the end of the arm to the mounting point's y, and give back the angle -/
def mountAndMove (s : IkSolver ℝ) (o : Iso ℝ) : Client ℝ (List ℝ) :=
  .call (.setOrigin 1 o) fun _ => .call (.solve s swingArm o onlyY) fun _ =>
    .call (.endTransform swingArm) fun t => .call (.chainSetOrigin swingArm t) fun _ =>
      .call (.jointPositions swingArm) fun xs => .done xs

theorem C109_mountAndMove (s : IkSolver ℝ) (o : Iso ℝ) : (mountAndMove s o).EitherSign (mountAndMove s o.otherSign) := by
  refine .call _ _ (.setOrigin 1 (.inr rfl)) fun _ _ _ => .call _ _ (.solve s swingArm (.inr rfl) onlyY ?_) fun _ _ _ =>
    .call _ _ (.other (.endTransform swingArm) id) fun t t' r => .call _ _ (.chainSetOrigin swingArm r) fun _ _ _ =>
    .call _ _ (.other (.jointPositions swingArm) id) fun xs xs' e => ?_
  · simp [Constraints.Turning, onlyY]
  · cases e; exact .done _

/-- the hypotheses of `C109_solve` are met by an arm with limits of one radian -/
theorem C109_gated (s : IkSolver ℝ) (c : Constraints) (a : Except (KError ℝ) Unit) (h' : KHeap ℝ)
    (e : run (solveWithConstraints s swingArm (atX 1) c) gated = .ok a h') :
    ∃ g', run (solveWithConstraints s swingArm (atX 1).otherSign c) (signedAt gated) = .ok a g' ∧ EitherSign h' g' :=
  (C109_solve s swingArm c (.inr rfl) (C109_signedAt gated) (fun _ => rfl) gated_wf gated_limits gated_inside
    gated_far).1 a h' e

end

end K
