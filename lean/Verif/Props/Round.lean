import Verif.Lemmas.Round
import Verif.Props.Fk
/-!
# C75: forward kinematics in rounded arithmetic
-/

namespace K
open Prog

noncomputable section

variable {A : Arith}

instance : LawfulOrd (Fl A) where
  lt_irrefl a := by simp [Scalar.lt]
  not_lt_of_le a b := by simp [Scalar.lt, Scalar.le]
  le_of_lt a b := by simpa [Scalar.lt, Scalar.le] using le_of_lt
  le_of_not_lt a b _ _ := by simp [Scalar.lt, Scalar.le]
  not_nan_left a b _ := by simp [IsNaN, Scalar.le]
  not_nan_right a b _ := by simp [IsNaN, Scalar.le]
  le_trans a b c := by simpa [Scalar.le] using le_trans

/-- the joints of the listed nodes stand for ideal rigid joints -/
def RoundsOn (B : ℕ) (ns : List NodeId) (f : KHeap (Fl A)) (h : KHeap ℝ) : Prop :=
  ∀ n ∈ ns, (f.get n).joint.Rounds B (h.get n).joint

/-- how far the joints can reach: lengths of the origins and strokes of the sliders -/
def reach (h : KHeap ℝ) (ns : List NodeId) : ℝ := (ns.map fun n => stepLength (h.get n).joint).sum

/-- number of roundings that enter the rotation of a pose with `n` joints -/
def rotOps (B n : ℕ) : ℕ := n * (8 * B + 21)
/-- number of roundings that enter the position -/
def posOps (B n : ℕ) : ℕ := n * (80 * B + 211) + 490

/-- the pose `a` in rounded numbers is the pose `X` up to `rotOps` and `posOps` roundings, lengths up to `L` -/
def CloseTo (B n : ℕ) (L : ℝ) (a : Iso (Fl A)) (X : Iso ℝ) : Prop :=
  (a.rot.val.diff X.rot).len ≤ (1 + A.u) ^ rotOps B n - 1 ∧
  (a.trans.val.sub X.trans).norm ≤ ((1 + A.u) ^ posOps B n - 1) * L

theorem INear.step {B n : ℕ} {L : ℝ} {a : Iso (Fl A)} {X : Iso ℝ} {b : Joint (Fl A)} {j : Joint ℝ}
    (i : INear ((1 + A.u) ^ rotOps B n) ((1 + A.u) ^ posOps B n) L a X) (hj : b.Rounds B j) :
    INear ((1 + A.u) ^ rotOps B (n + 1)) ((1 + A.u) ^ posOps B (n + 1)) (L + stepLength j)
      (a.mul b.localTransform) (X.mul j.localTransform) := by
  refine (i.mul (local_near hj)).mono ?_ ?_ le_rfl
  · simp only [rotOps]; ring_nf; omega
  · have : max (posOps B n) (10 * rotOps B n + 5 * 86 + 60) = posOps B n := by
      refine max_eq_left ?_
      simp only [posOps, rotOps]; ring_nf; omega
    rw [this]; simp only [posOps]; ring_nf; omega

theorem INear.start (B : ℕ) : INear (A := A) ((1 + A.u) ^ rotOps B 0) ((1 + A.u) ^ posOps B 0) 0 Iso.one Iso.one :=
  INear.one.mono (Nat.zero_le _) (Nat.zero_le _) le_rfl

theorem INear.fold {B : ℕ} {f : KHeap (Fl A)} {h : KHeap ℝ} (ns : List NodeId) (r : RoundsOn B ns f h) (n : ℕ)
    (L : ℝ) (a : Iso (Fl A)) (X : Iso ℝ) (i : INear ((1 + A.u) ^ rotOps B n) ((1 + A.u) ^ posOps B n) L a X) :
    INear ((1 + A.u) ^ rotOps B (n + ns.length)) ((1 + A.u) ^ posOps B (n + ns.length)) (L + reach h ns)
      (ns.foldl (fun t n => t.mul (f.get n).joint.localTransform) a)
      (ns.foldl (fun t n => t.mul (h.get n).joint.localTransform) X) := by
  induction ns generalizing n L a X with
  | nil => simpa [reach] using i
  | cons m ns ih =>
    have := ih (fun k hk => r k (List.mem_cons_of_mem _ hk)) (n + 1) _ _ _ (i.step (r m (by simp)))
    have e : n + 1 + ns.length = n + (m :: ns).length := by simp; omega
    have eL : L + stepLength (h.get m).joint + reach h ns = L + reach h (m :: ns) := by simp [reach]; ring
    rw [e, eL] at this
    exact this

theorem INear.closeTo {B n : ℕ} {L : ℝ} {a : Iso (Fl A)} {X : Iso ℝ}
    (i : INear ((1 + A.u) ^ rotOps B n) ((1 + A.u) ^ posOps B n) L a X) : CloseTo B n L a X :=
  ⟨i.rot.err, i.trans.err⟩

/-- **C75, `end_transform`.**  Computed with rounding, the pose of the end is the ideal pose up to an error
that is at most `(1 + u)^k - 1`, for the position times the reach of the arm. -/
theorem C75_end_transform (B : ℕ) (c : Chain) (f : KHeap (Fl A)) (h : KHeap ℝ) (uf : f.Unlocked) (uh : h.Unlocked)
    (r : RoundsOn B c.nodes f h) :
    ∃ a X, run c.endTransform f = .ok a f ∧ run c.endTransform h = .ok X h ∧
      CloseTo B c.nodes.length (reach h c.nodes) a X := by
  refine ⟨_, _, run_endTransform c f uf, run_endTransform c h uh, ?_⟩
  have := (INear.start (A := A) B).fold c.nodes r
  rw [zero_add, zero_add] at this
  exact this.closeTo

theorem World.near {B : ℕ} {f : KHeap (Fl A)} {h : KHeap ℝ} (par : ∀ n, liveParent f n = liveParent h n)
    {n : NodeId} {a : Iso (Fl A)} {X : Iso ℝ} {ps : List NodeId} (wf : World f n a) (wh : World h n X)
    (l : Lineage h n ps) (r : RoundsOn B ps f h) :
    INear ((1 + A.u) ^ rotOps B ps.length) ((1 + A.u) ^ posOps B ps.length) (reach h ps) a X := by
  induction l generalizing a X with
  | @root n e =>
    cases wh with
    | step e' _ => rw [e] at e'; cases e'
    | root _ =>
      cases wf with
      | step e' _ => rw [par, e] at e'; cases e'
      | root _ =>
        have := (INear.start (A := A) B).step (r n (by simp))
        simpa [reach] using this
  | @step n p ps e l ih =>
    cases wh with
    | root e' => rw [e] at e'; cases e'
    | step e' w =>
      rw [e] at e'; cases e'
      cases wf with
      | root e' => rw [par, e] at e'; cases e'
      | step e' v =>
        rw [par, e] at e'; cases e'
        have := (ih v w (fun k hk => r k (List.mem_cons_of_mem _ hk))).step (r n (by simp))
        have eL : reach h ps + stepLength (h.get n).joint = reach h (n :: ps) := by simp [reach]; ring
        rw [eL] at this
        exact this

theorem parentsAhead_lineage {T : Type} [Scalar T] {h : KHeap T} {ns : List NodeId} (pa : ParentsAhead h ns)
    {n : NodeId} (hn : n ∈ ns) : ∃ ps, Lineage h n ps ∧ ∀ k ∈ ps, k ∈ ns := by
  have key : ∀ (len : ℕ) (pre : List NodeId) (n : NodeId) (post : List NodeId), pre.length = len →
      ns = pre ++ n :: post → ∃ ps, Lineage h n ps ∧ ∀ k ∈ ps, k ∈ ns := by
    intro len
    induction len using Nat.strong_induction_on with
    | _ len ih =>
      intro pre n post hl e
      have hm : n ∈ ns := by rw [e]; simp
      rcases pa pre n post e with hp | ⟨p, hp, ep⟩
      · exact ⟨[n], .root hp, by simpa using hm⟩
      · obtain ⟨pre', post', rfl⟩ := List.append_of_mem hp
        obtain ⟨ps, l, hs⟩ := ih pre'.length (by rw [← hl]; simp) pre' p (post' ++ n :: post) rfl (by rw [e]; simp)
        exact ⟨n :: ps, .step ep l, by
          intro k hk
          rcases List.mem_cons.1 hk with rfl | hk
          · exact hm
          · exact hs k hk⟩
  obtain ⟨pre, post, e⟩ := List.append_of_mem hn
  exact key _ pre n post rfl e

theorem ParentsAhead.congr {T S : Type} [Scalar T] [Scalar S] {f : KHeap T} {h : KHeap S} {ns : List NodeId}
    (par : ∀ n, liveParent f n = liveParent h n) (pa : ParentsAhead h ns) : ParentsAhead f ns := by
  intro pre n post e
  rw [par]
  exact pa pre n post e

/-- **C75, `update_transforms`.**  The same for the transform of every node, with the number and the reach of
the joints between the root and the node. -/
theorem C75_update_transforms (B : ℕ) (c : Chain) (f : KHeap (Fl A)) (h : KHeap ℝ) (uf : f.Unlocked)
    (uh : h.Unlocked) (par : ∀ n, liveParent f n = liveParent h n) (pa : ParentsAhead h c.nodes)
    (r : RoundsOn B c.nodes f h) :
    ∃ as f' Xs h', run c.updateTransforms f = .ok as f' ∧ run c.updateTransforms h = .ok Xs h' ∧
      as.length = c.nodes.length ∧ Xs.length = c.nodes.length ∧
      ∀ (i : Nat) n a X, c.nodes[i]? = some n → as[i]? = some a → Xs[i]? = some X →
        run (Node.worldTransform n) f' = .ok (some a) f' ∧
        ∃ ps, Lineage h n ps ∧ CloseTo B ps.length (reach h ps) a X := by
  obtain ⟨as, f', ef, wf, cf, -, -⟩ := C12_update_transforms f uf c (pa.congr par)
  obtain ⟨Xs, h', eh, wh, -, -, -⟩ := C12_update_transforms h uh c pa
  refine ⟨as, f', Xs, h', ef, eh, wf.length_eq.symm, wh.length_eq.symm, ?_⟩
  intro i n a X hn ha hX
  have get : ∀ {T : Type} [Scalar T] {g : KHeap T} {Ys : List (Iso T)} (_ : List.Forall₂ (World g) c.nodes Ys) (Y : Iso T),
      Ys[i]? = some Y → World g n Y := by
    intro T _ g Ys w Y hY
    obtain ⟨hi, en⟩ := List.getElem?_eq_some_iff.1 hn
    obtain ⟨hj, eY⟩ := List.getElem?_eq_some_iff.1 hY
    have := (List.forall₂_iff_get.1 w).2 i hi hj
    simpa [en, eY] using this
  have wa := get wf a ha
  have wX := get wh X hX
  obtain ⟨ps, l, hs⟩ := parentsAhead_lineage pa (List.mem_of_getElem? hn)
  refine ⟨?_, ps, l, (World.near par wa wX l fun k hk => r k (hs k hk)).closeTo⟩
  obtain ⟨b, wb, eb⟩ := cf n (List.mem_of_getElem? hn)
  rwa [wa.unique wb]

/-- `(1 + u)^k - 1` is about `k u` -/
theorem pow_u_le (k : ℕ) (hk : k * A.u ≤ 1) : (1 + A.u) ^ k - 1 ≤ 2 * (k * A.u) := by
  have u0 := A.u_nonneg
  have e : (1 + A.u) ^ k ≤ Real.exp (k * A.u) := by
    rw [Real.exp_nat_mul]
    exact pow_le_pow_left₀ (by linarith) (by linarith [Real.add_one_le_exp A.u]) k
  have := Real.abs_exp_sub_one_le (x := k * A.u) (by rwa [abs_of_nonneg (by positivity)])
  rw [abs_of_nonneg (a := k * A.u) (by positivity)] at this
  linarith [le_abs_self (Real.exp (k * A.u) - 1)]

theorem reach_nonneg (h : KHeap ℝ) (ns : List NodeId) : 0 ≤ reach h ns := by
  refine List.sum_nonneg ?_
  intro x hx
  obtain ⟨n, -, rfl⟩ := List.mem_map.1 hx
  rw [stepLength]
  have := (h.get n).joint.origin.trans.norm_nonneg'
  split
  · positivity
  · linarith

/-- **C75, the order of magnitude.**  As long as the number of roundings times `u` is at most one, the errors
are at most twice that product. -/
theorem C75_linear (B : ℕ) (c : Chain) (f : KHeap (Fl A)) (h : KHeap ℝ) (uf : f.Unlocked) (uh : h.Unlocked)
    (r : RoundsOn B c.nodes f h) (small : posOps B c.nodes.length * A.u ≤ 1) :
    ∃ a X, run c.endTransform f = .ok a f ∧ run c.endTransform h = .ok X h ∧
      (a.rot.val.diff X.rot).len ≤ 2 * (rotOps B c.nodes.length * A.u) ∧
      (a.trans.val.sub X.trans).norm ≤ 2 * (posOps B c.nodes.length * A.u) * reach h c.nodes := by
  obtain ⟨a, X, ea, eX, h1, h2⟩ := C75_end_transform B c f h uf uh r
  refine ⟨a, X, ea, eX, h1.trans (pow_u_le _ ?_), h2.trans (mul_le_mul_of_nonneg_right (pow_u_le _ small) (reach_nonneg _ _))⟩
  refine le_trans (mul_le_mul_of_nonneg_right ?_ A.u_nonneg) small
  have : rotOps B c.nodes.length ≤ posOps B c.nodes.length := by
    simp only [rotOps, posOps]; ring_nf; omega
  exact_mod_cast this

/-! ## the solver -/

theorem one_sub_mul_le {e x y : ℝ} (h : |e - x| ≤ A.u * y) (hx : x = y) : (1 - A.u) * x ≤ e := by
  subst hx
  have := (abs_le.1 h).1
  linarith

/-- a computed length is not much too short -/
theorem norm_lower (a : V3 (Fl A)) : (1 - A.u) ^ 3 * a.val.norm ≤ a.norm.val := by
  have u0 := A.u_nonneg
  have u1 := A.u_le
  have v0 : 0 ≤ 1 - A.u := by linarith
  have m : ∀ x : Fl A, (1 - A.u) * (x.val * x.val) ≤ (x * x).val := fun x =>
    one_sub_mul_le (A.mul_err x.val x.val) (abs_of_nonneg (mul_self_nonneg _)).symm
  have ad : ∀ x y : Fl A, 0 ≤ x.val → 0 ≤ y.val → (1 - A.u) * (x.val + y.val) ≤ (x + y).val := fun x y hx hy =>
    one_sub_mul_le (A.add_err x.val y.val) (abs_of_nonneg (add_nonneg hx hy)).symm
  have nn : ∀ x : Fl A, 0 ≤ (x * x).val := fun x => (mul_nonneg v0 (mul_self_nonneg _)).trans (m x)
  have s1 := ad (a.x * a.x) (a.y * a.y) (nn _) (nn _)
  have p1 : 0 ≤ (a.x * a.x + a.y * a.y).val := (mul_nonneg v0 (add_nonneg (nn _) (nn _))).trans s1
  have s2 := ad (a.x * a.x + a.y * a.y) (a.z * a.z) p1 (nn _)
  have p2 : 0 ≤ (a.x * a.x + a.y * a.y + a.z * a.z).val := (mul_nonneg v0 (add_nonneg p1 (nn _))).trans s2
  have N : (1 - A.u) ^ 4 * (a.val.norm ^ 2) ≤ (a.x * a.x + a.y * a.y + a.z * a.z).val := by
    rw [norm_sq]
    have q1 := m a.x
    have q2 := m a.y
    have q3 := m a.z
    simp only [V3.val]
    have w1 : (1 - A.u) * ((1 - A.u) * (a.x.val * a.x.val) + (1 - A.u) * (a.y.val * a.y.val)) ≤
        (a.x * a.x + a.y * a.y).val := (mul_le_mul_of_nonneg_left (by linarith) v0).trans s1
    have w2 : (1 - A.u) * ((1 - A.u) * ((1 - A.u) * (a.x.val * a.x.val) + (1 - A.u) * (a.y.val * a.y.val)) +
        (1 - A.u) * (a.z.val * a.z.val)) ≤ (a.x * a.x + a.y * a.y + a.z * a.z).val :=
      (mul_le_mul_of_nonneg_left (by linarith) v0).trans s2
    refine le_trans ?_ w2
    have o : 1 - A.u ≤ 1 := by linarith
    have f3 : (1 - A.u) ^ 4 ≤ (1 - A.u) ^ 3 := pow_le_pow_of_le_one v0 o (by decide)
    have f2 : (1 - A.u) ^ 4 ≤ (1 - A.u) ^ 2 := pow_le_pow_of_le_one v0 o (by decide)
    nlinarith [mul_le_mul_of_nonneg_right f3 (mul_self_nonneg a.x.val),
      mul_le_mul_of_nonneg_right f3 (mul_self_nonneg a.y.val), mul_le_mul_of_nonneg_right f2 (mul_self_nonneg a.z.val)]
  have q : (1 - A.u) ^ 2 * a.val.norm ≤ Real.sqrt (a.x * a.x + a.y * a.y + a.z * a.z).val := by
    refine Real.le_sqrt_of_sq_le ?_
    rw [mul_pow, ← pow_mul]; exact N
  have s := one_sub_mul_le (A.sqrt_err _ p2) rfl
  have s' : (1 - A.u) * Real.sqrt (a.x * a.x + a.y * a.y + a.z * a.z).val ≤ a.norm.val := s
  have := mul_le_mul_of_nonneg_left q v0
  calc (1 - A.u) ^ 3 * a.val.norm = (1 - A.u) * ((1 - A.u) ^ 2 * a.val.norm) := by ring
    _ ≤ _ := this.trans s'

/-- the ideal heap with the joints at the positions stored in `f` -/
def posedAs (h : KHeap ℝ) (f : KHeap (Fl A)) : KHeap ℝ :=
  { h with get := fun n => { h.get n with joint := { (h.get n).joint with position := (f.get n).joint.position.val } } }

/-- the rotational joints are turned by at most `2 B` -/
def TurnsWithin (B : ℕ) (ns : List NodeId) (f : KHeap (Fl A)) : Prop :=
  ∀ n ∈ ns, ∀ v, (f.get n).joint.jointType = .rotational v → |(f.get n).joint.position.val| ≤ 2 * B

theorem RoundsOn.moved {B B' : ℕ} {ns : List NodeId} {f f' : KHeap (Fl A)} {h : KHeap ℝ} (r : RoundsOn B ns f h)
    (s : SameBut f f') (hB : TurnsWithin B' ns f') : RoundsOn B' ns f' (posedAs h f') := by
  intro n hn
  obtain ⟨rg, ot, orr, k, -⟩ := r n hn
  have hb := hB n hn
  obtain ⟨p, wt, wv, e⟩ := s.node n
  refine ⟨rg, ?_, ?_, ?_, ?_⟩
  · rw [e]; exact ot
  · rw [e]; exact orr
  · revert k
    have e1 : (f'.get n).joint.jointType = (f.get n).joint.jointType := by rw [e]
    have e2 : ((posedAs h f').get n).joint.jointType = (h.get n).joint.jointType := rfl
    rw [e1] at hb
    rw [e1, e2]
    revert hb
    cases (f.get n).joint.jointType <;> cases (h.get n).joint.jointType <;> intro hb k <;> dsimp only at k ⊢ <;>
      try exact k
    exact ⟨k.1, hb _ rfl⟩
  · simp only [posedAs, sub_self, abs_zero]
    exact mul_nonneg A.u_nonneg (abs_nonneg _)

theorem masked_lower (x y z : Bool) (a b : V3 (Fl A)) :
    (1 - A.u) * (masked x y z (a.val.sub b.val)).norm ≤ (masked x y z (a.sub b)).val.norm := by
  have e : ((masked x y z (a.val.sub b.val)).sub (masked x y z (a.sub b)).val).norm ≤
      A.u * (masked x y z (a.val.sub b.val)).norm := by
    refine V3.norm_le_comp _ _ _ A.u_nonneg ?_ ?_ ?_
    · have := A.sub_err a.x.val b.x.val
      rw [abs_sub_comm] at this
      cases x
      · simp [masked, V3.sub, V3.val]
      · exact this
    · have := A.sub_err a.y.val b.y.val
      rw [abs_sub_comm] at this
      cases y
      · simp [masked, V3.sub, V3.val]
      · exact this
    · have := A.sub_err a.z.val b.z.val
      rw [abs_sub_comm] at this
      cases z
      · simp [masked, V3.sub, V3.val]
      · exact this
  have := V3.norm_le_sub (masked x y z (a.val.sub b.val)) (masked x y z (a.sub b)).val
  linarith

/-- **C75, the solver.**  `Ok` from a solver that computes with rounding means: the real arm, at the joint
positions the solver stored, has its end nearer to the target, in the constrained coordinates of the position,
than the tolerance, slightly enlarged, plus the rounding error of the forward kinematics. -/
theorem C75_solve (B : ℕ) (s : IkSolver (Fl A)) (arm : Chain) (target : Iso (Fl A)) (c : Constraints)
    (f f' : KHeap (Fl A)) (h : KHeap ℝ) (uf : f.Unlocked) (uh : h.Unlocked) (w : arm.Wf f) (p : ProperLimits f)
    (o : NoneOutside f arm.movableNodes) (r : RoundsOn B arm.nodes f h)
    (e : run (solveWithConstraints s arm target c) f = .ok (.ok ()) f') (hB : TurnsWithin B arm.nodes f') :
    ∃ X, run arm.endTransform (posedAs h f') = .ok X (posedAs h f') ∧
      (posError c target.val X).norm < s.allowableTargetDistance.val / (1 - A.u) ^ 4 +
        ((1 + A.u) ^ posOps B arm.nodes.length - 1) * reach (posedAs h f') arm.nodes := by
  obtain ⟨⟨a, ea, hd, -⟩, -⟩ := C24_success (s := s) (c := c) f f' uf w p o e
  have sb := solve_sameBut uf w e
  obtain ⟨a', X, ea', eX, -, hX⟩ := C75_end_transform B arm f' (posedAs h f') (sb.unlocked uf) uh (r.moved sb hB)
  rw [ea] at ea'
  cases ea'
  refine ⟨X, eX, ?_⟩
  have hd : (posError c target a).norm.val < s.allowableTargetDistance.val := of_decide_eq_true hd
  have v0 : 0 < 1 - A.u := by linarith [A.u_le]
  have l1 := norm_lower (posError c target a)
  have l2 : (1 - A.u) ^ 3 * ((1 - A.u) * (posError c target.val a.val).norm) ≤
      (1 - A.u) ^ 3 * (posError c target a).val.norm :=
    mul_le_mul_of_nonneg_left (masked_lower _ _ _ target.trans a.trans) (pow_nonneg v0.le 3)
  have l3 : (posError c target.val a.val).norm < s.allowableTargetDistance.val / (1 - A.u) ^ 4 := by
    rw [lt_div_iff₀ (pow_pos v0 4)]
    nlinarith
  have t := V3.norm_add_le (posError c target.val a.val)
    (masked c.positionX c.positionY c.positionZ (a.trans.val.sub X.trans))
  have et : (posError c target.val a.val).add (masked c.positionX c.positionY c.positionZ (a.trans.val.sub X.trans)) =
      posError c target.val X := by
    ext <;> simp only [posError, masked, V3.sub, V3.add, Iso.val] <;> split <;> simp
  rw [et] at t
  have := masked_norm_le c.positionX c.positionY c.positionZ (a.trans.val.sub X.trans)
  linarith

/-! ## rounding that matters -/

/-- products are too large by the factor `1 + u`, everything else is exact -/
def greedy (u : ℝ) (u0 : 0 ≤ u) (u1 : u ≤ 1 / 2) : Arith where
  u := u
  u_nonneg := u0
  u_le := u1
  add a b := a + b
  sub a b := a - b
  mul a b := a * b * (1 + u)
  div a b := a / b
  sin := Real.sin
  cos := Real.cos
  sqrt := Real.sqrt
  atan2 _ _ := 0
  lit n d := n / d
  add_err a b := by simpa using mul_nonneg u0 (abs_nonneg (a + b))
  sub_err a b := by simpa using mul_nonneg u0 (abs_nonneg (a - b))
  mul_err a b := by
    have : a * b * (1 + u) - a * b = u * (a * b) := by ring
    rw [this, abs_mul u, abs_of_nonneg u0]
  div_err a b _ := by simpa using mul_nonneg u0 (abs_nonneg (a / b))
  sin_err a := by simpa using u0
  cos_err a := by simpa using u0
  sqrt_err a _ := by simpa using mul_nonneg u0 (Real.sqrt_nonneg a)
  lit_err n d := by simpa using mul_nonneg u0 (by positivity : (0 : ℝ) ≤ n / d)

theorem greedy_mul {u : ℝ} {u0 : 0 ≤ u} {u1 : u ≤ 1 / 2} (a b : Fl (greedy u u0 u1)) :
    (a * b).val = a.val * b.val * (1 + u) := rfl
theorem greedy_add {u : ℝ} {u0 : 0 ≤ u} {u1 : u ≤ 1 / 2} (a b : Fl (greedy u u0 u1)) :
    (a + b).val = a.val + b.val := rfl
theorem greedy_sub {u : ℝ} {u0 : 0 ≤ u} {u1 : u ≤ 1 / 2} (a b : Fl (greedy u u0 u1)) :
    (a - b).val = a.val - b.val := rfl

/-- fixed joints without offset, as many as one likes -/
def plain (T : Type) [Scalar T] : KHeap T :=
  { get := fun _ => NodeImpl.fresh (Joint.new "j" .fixed), next := 0, dead := fun _ => false, held := fun _ => false }

theorem plain_rounds (ns : List NodeId) : RoundsOn (A := A) 0 ns (plain (Fl A)) (plain ℝ) := by
  intro n _
  refine ⟨⟨?_, ?_⟩, ?_, ?_, ?_, ?_⟩
  · simp [plain, NodeImpl.fresh, Joint.new, Iso.IsRigid, Iso.one, Quat.one_isUnit]
  · simp [plain, NodeImpl.fresh, Joint.new]
  · simp [plain, NodeImpl.fresh, Joint.new, Iso.one, V3.zero, V3.val, V3.sub, V3.norm, Scalar.sqrt]
  · simpa [plain, NodeImpl.fresh, Joint.new, Iso.one, Quat.one, Quat.val, Quat.diff, Quat.len] using A.u_nonneg
  · simp [plain, NodeImpl.fresh, Joint.new]
  · simp [plain, NodeImpl.fresh, Joint.new]

/-- **C75, no bound without the number of joints.**  The code never normalises the accumulated rotation: with
an arithmetic that is off by `u` in each product, the rotation of the end of a chain of `n` joints that do
nothing has length `(1 + u)^(2 n)` instead of 1. -/
theorem C75_drift (u : ℝ) (u0 : 0 ≤ u) (u1 : u ≤ 1 / 2) (c : Chain) :
    ∃ a, run c.endTransform (plain (Fl (greedy u u0 u1))) = .ok a (plain (Fl (greedy u u0 u1))) ∧
      a.rot.val.len = (1 + u) ^ (2 * c.nodes.length) := by
  refine ⟨_, run_endTransform _ _ (fun _ => rfl), ?_⟩
  have key : ∀ (ns : List NodeId) (t : Iso (Fl (greedy u u0 u1))) (k : ℕ),
      t.rot = ⟨⟨(1 + u) ^ k⟩, 0, 0, 0⟩ →
      (ns.foldl (fun t n => t.mul ((plain (Fl (greedy u u0 u1))).get n).joint.localTransform) t).rot =
        ⟨⟨(1 + u) ^ (k + 2 * ns.length)⟩, 0, 0, 0⟩ := by
    intro ns
    induction ns with
    | nil => intro t k e; simpa using e
    | cons m ns ih =>
      intro t k e
      have := ih (t.mul ((plain (Fl (greedy u u0 u1))).get m).joint.localTransform) (k + 2) ?_
      · rw [List.foldl_cons, this]
        have : k + 2 + 2 * ns.length = k + 2 * (m :: ns).length := by simp; omega
        rw [this]
      · have l : ((plain (Fl (greedy u u0 u1))).get m).joint.localTransform.rot = ⟨⟨1 + u⟩, 0, 0, 0⟩ := by
          ext <;> simp [plain, NodeImpl.fresh, Joint.new, Joint.localTransform, Joint.jointTransform, Iso.mul, Iso.one,
            Quat.mul, Quat.one, greedy_add, greedy_sub, greedy_mul]
        show t.rot.mul ((plain (Fl (greedy u u0 u1))).get m).joint.localTransform.rot = _
        rw [l, e]
        ext <;> simp [Quat.mul, greedy_add, greedy_sub, greedy_mul]
        ring
  have := key c.nodes Iso.one 0 (by simp [Iso.one, Quat.one]; rfl)
  rw [zero_add] at this
  rw [endPose, this]
  have p : (0 : ℝ) ≤ (1 + u) ^ (2 * c.nodes.length) := by positivity
  simp [Quat.val, Quat.len, Real.sqrt_mul_self p]

/-- one slider along x at 1 -/
def track (T : Type) [Scalar T] : KHeap T :=
  { get := fun _ => NodeImpl.fresh { Joint.new "s" (.linear ⟨1, 0, 0⟩) with position := 1 }
    next := 1, dead := fun _ => false, held := fun _ => false }

theorem track_rounds (ns : List NodeId) : RoundsOn (A := A) 0 ns (track (Fl A)) (track ℝ) := by
  intro n _
  refine ⟨⟨?_, ?_⟩, ?_, ?_, ?_, ?_⟩
  · simp [track, NodeImpl.fresh, Joint.new, Iso.IsRigid, Iso.one, Quat.one_isUnit]
  · simp [track, NodeImpl.fresh, Joint.new, V3.IsUnit]
  · simp [track, NodeImpl.fresh, Joint.new, Iso.one, V3.zero, V3.val, V3.sub, V3.norm, Scalar.sqrt]
  · simpa [track, NodeImpl.fresh, Joint.new, Iso.one, Quat.one, Quat.val, Quat.diff, Quat.len] using A.u_nonneg
  · simpa [track, NodeImpl.fresh, Joint.new, V3.val, V3.sub, V3.norm, Scalar.sqrt] using A.u_nonneg
  · simpa [track, NodeImpl.fresh, Joint.new] using A.u_nonneg

/-- linear algebra that proposes not to move -/
def stay (T : Type) [Scalar T] : LinAlg T := ⟨fun _ _ => some [0], fun _ _ => [0], fun _ => []⟩

/-- the slider and its pose in the greedy arithmetic -/
structure OnTrack {u : ℝ} {u0 : 0 ≤ u} {u1 : u ≤ 1 / 2} (f : KHeap (Fl (greedy u u0 u1))) : Prop where
  kind : (f.get 0).joint.jointType = .linear ⟨1, 0, 0⟩
  origin : (f.get 0).joint.origin = Iso.one
  limits : (f.get 0).joint.limits = none
  position : (f.get 0).joint.position = 1

theorem OnTrack.pose {u : ℝ} {u0 : 0 ≤ u} {u1 : u ≤ 1 / 2} {f : KHeap (Fl (greedy u u0 u1))} (t : OnTrack f) :
    (endPose f arm1.nodes).trans = ⟨⟨1 + u⟩, 0, 0⟩ := by
  simp only [endPose, arm1, List.foldl_cons, List.foldl_nil, Joint.localTransform, Joint.jointTransform, t.kind,
    t.origin, t.position]
  ext <;> simp [Iso.mul, Iso.one, V3.add, V3.scale, V3.zero, V3.cross, Quat.rotate, Quat.vec, Quat.one, greedy_add,
    greedy_sub, greedy_mul]

/-- **C75, the rounding term is needed.**  Whatever the tolerances, the solver can report `Ok`, with a computed
error of 0, for a target that the real end misses by `u`. -/
theorem C75_ok_but_off (u : ℝ) (u0 : 0 ≤ u) (u1 : u ≤ 1 / 2) (d a : Fl (greedy u u0 u1)) (hd : 0 < d.val)
    (ha : 0 < a.val) :
    ∃ f' X, run (solveWithConstraints ⟨d, a, 1, 1, none, stay _⟩ arm1 ⟨⟨⟨1 + u⟩, 0, 0⟩, Quat.one⟩ (onlyX []))
        (track (Fl (greedy u u0 u1))) = .ok (.ok ()) f' ∧
      run arm1.endTransform (posedAs (track ℝ) f') = .ok X (posedAs (track ℝ) f') ∧
      (posError (onlyX []) ⟨⟨1 + u, 0, 0⟩, Quat.one⟩ X).norm = u := by
  let s : IkSolver (Fl (greedy u u0 u1)) := ⟨d, a, 1, 1, none, stay _⟩
  let target : Iso (Fl (greedy u u0 u1)) := ⟨⟨⟨1 + u⟩, 0, 0⟩, Quat.one⟩
  let f := track (Fl (greedy u u0 u1))
  have t : OnTrack f := ⟨rfl, rfl, rfl, rfl⟩
  have uf : f.Unlocked := fun _ => rfl
  have w : arm1.Wf f := ⟨by simp [arm1, f, track, NodeImpl.fresh, Joint.new, Movable], rfl⟩
  have pr : ParentsReady f arm1.nodes := by
    intro pre n post _ p hp
    have : liveParent f n = none := by simp [liveParent, f, track, NodeImpl.fresh]
    rw [this] at hp; cases hp
  have diff0 : ∀ g : KHeap (Fl (greedy u u0 u1)), OnTrack g →
      calcPoseDiffWithConstraints target (endPose g arm1.nodes) (defineOperationalSpace (onlyX [])) = [0] := by
    intro g tg
    simp only [calcPoseDiffWithConstraints, calcPoseDiff, defineOperationalSpace, onlyX, selectFlags, tg.pose,
      target, V3.sub]
    congr 1
    ext
    simp [greedy_sub]
  have pos1 : posList f arm1.movableNodes = [1] := rfl
  obtain ⟨f1, ow, e⟩ := run_solveOneLoop (s := s) (arm := arm1) (target := target)
    (ops := defineOperationalSpace (onlyX [])) (ign := []) f uf w pr [1] (by
      intro jac _ hl
      rw [diff0 _ t, pos1]
      have l6 : ∀ col ∈ jac, col.length = 6 := hl
      have m : addPositionsWithMultiplier (1 : Fl (greedy u u0 u1)) [1] [0] = [1] := by
        simp only [addPositionsWithMultiplier, List.zipWith]
        congr 1
        ext
        simp [greedy_add, greedy_mul]
      simp only [nextPositions, removeRows_onlyX [] jac l6, removeIndices, Bind.bind, Except.bind]
      simp [arm1, onlyX_count, s, stay, m])
  have t1 : OnTrack f1 := by
    have := ow.same 0
    unfold SameButWorld at this
    constructor <;> rw [this]
    · exact t.kind
    · exact t.origin
    · exact t.limits
    · exact t.position
  have keep : ∀ g : KHeap (Fl (greedy u u0 u1)), OnTrack g → OnTrack (clampAll (arm1.movableNodes.zip [1]) g) := by
    intro g tg
    constructor <;> simp [clampAll, arm1, Heap.modify, Joint.setJointPositionClamped, Joint.isMovable, tg.kind,
      tg.origin, tg.limits, Joint.setJointPositionUnchecked]
  have t2 := keep f1 t1
  rw [diff0 _ t2] at e
  have r := run_solve_reached (s := s) (c := onlyX []) uf w rfl (Nat.zero_le _)
    (le_refl 1) (is := []) rfl (by rw [sortedIndices_nil]; exact e) (by
      have : targetDiffToLenRotDiff [(0 : Fl (greedy u u0 u1))] (defineOperationalSpace (onlyX [])) =
        (⟨0, 0, 0⟩, ⟨0, 0, 0⟩) := rfl
      rw [this]
      have z : (⟨0, 0, 0⟩ : V3 (Fl (greedy u u0 u1))).norm.val = 0 := by
        show Real.sqrt (0 * 0 * (1 + u) + 0 * 0 * (1 + u) + 0 * 0 * (1 + u)) = 0
        simp
      simp only [reached, Bool.and_eq_true]
      exact ⟨decide_eq_true (by rw [z]; exact hd), decide_eq_true (by rw [z]; exact ha)⟩)
  refine ⟨_, _, r, run_endTransform _ _ (fun _ => rfl), ?_⟩
  have pl : posList (clampAll (arm1.movableNodes.zip [1]) f1) arm1.movableNodes = [1] := by
    show [((clampAll (arm1.movableNodes.zip [1]) f1).get 0).joint.position] = [1]
    rw [t2.position]
  rw [pl]
  have t3 := keep _ t2
  have ep : ((posedAs (track ℝ) (clampAll (arm1.movableNodes.zip [1]) (clampAll (arm1.movableNodes.zip [1]) f1))).get
      0).joint = (track ℝ |>.get 0).joint := by
    simp only [posedAs, t3.position]
    rfl
  have et : (endPose (posedAs (track ℝ) (clampAll (arm1.movableNodes.zip [1])
      (clampAll (arm1.movableNodes.zip [1]) f1))) arm1.nodes).trans = ⟨1, 0, 0⟩ := by
    simp only [endPose, arm1, List.foldl_cons, List.foldl_nil]
    rw [show [0].zip [(1 : Fl (greedy u u0 u1))] = arm1.movableNodes.zip [1] from rfl, ep]
    ext <;> simp [track, NodeImpl.fresh, Joint.new, Joint.localTransform, Joint.jointTransform, Iso.mul, Iso.one,
      V3.add, V3.scale, V3.zero, V3.cross, Quat.rotate, Quat.vec, Quat.one]
  simp only [posError, et]
  simp [masked, onlyX, V3.sub, V3.norm, Scalar.sqrt, Real.sqrt_mul_self u0]

/-! ## examples -/

/-- seven joints turned by at most 4 rad, with the relative error of `f64`: the position is off by less than
`10⁻¹²` times the reach -/
example (c : Chain) (f : KHeap (Fl A)) (h : KHeap ℝ) (uf : f.Unlocked) (uh : h.Unlocked)
    (r : RoundsOn 2 c.nodes f h) (hu : A.u = 1 / 2 ^ 53) (seven : c.nodes.length = 7) :
    ∃ a X, run c.endTransform f = .ok a f ∧ run c.endTransform h = .ok X h ∧
      (a.trans.val.sub X.trans).norm ≤ 1 / 10 ^ 12 * reach h c.nodes := by
  obtain ⟨a, X, ea, eX, -, b⟩ := C75_linear 2 c f h uf uh r (by rw [hu, seven]; norm_num [posOps])
  refine ⟨a, X, ea, eX, b.trans (mul_le_mul_of_nonneg_right ?_ (reach_nonneg _ _))⟩
  rw [hu, seven]; norm_num [posOps]

/-- the slider of the witness, in any arithmetic -/
example : ∃ a X, run arm1.endTransform (track (Fl A)) = .ok a (track (Fl A)) ∧
    run arm1.endTransform (track ℝ) = .ok X (track ℝ) ∧ CloseTo 0 1 (reach (track ℝ) [0]) a X :=
  C75_end_transform 0 arm1 _ _ (fun _ => rfl) (fun _ => rfl) (track_rounds _)

example : ∃ as f' Xs h', run arm1.updateTransforms (track (Fl A)) = .ok as f' ∧
    run arm1.updateTransforms (track ℝ) = .ok Xs h' ∧ as.length = 1 ∧ Xs.length = 1 := by
  obtain ⟨as, f', Xs, h', a, b, c, d, -⟩ := C75_update_transforms (A := A) 0 arm1 (track (Fl A)) (track ℝ)
    (fun _ => rfl) (fun _ => rfl) (fun _ => by simp [liveParent, track, NodeImpl.fresh])
    (fun _ _ _ _ => .inl (by simp [liveParent, track, NodeImpl.fresh])) (track_rounds _)
  exact ⟨as, f', Xs, h', a, b, c, d⟩

/-- the bound on the solver applies to the run of `C75_ok_but_off` -/
example (u : ℝ) (u0 : 0 ≤ u) (u1 : u ≤ 1 / 2) (d a : Fl (greedy u u0 u1)) (hd : 0 < d.val) (ha : 0 < a.val) :
    ∃ f' X, run (solveWithConstraints ⟨d, a, 1, 1, none, stay _⟩ arm1 ⟨⟨⟨1 + u⟩, 0, 0⟩, Quat.one⟩ (onlyX []))
        (track (Fl (greedy u u0 u1))) = .ok (.ok ()) f' ∧
      run arm1.endTransform (posedAs (track ℝ) f') = .ok X (posedAs (track ℝ) f') ∧
      (posError (onlyX []) (⟨⟨⟨1 + u⟩, 0, 0⟩, Quat.one⟩ : Iso (Fl (greedy u u0 u1))).val X).norm <
        d.val / (1 - u) ^ 4 + ((1 + u) ^ posOps 0 1 - 1) * reach (posedAs (track ℝ) f') [0] := by
  obtain ⟨f', _, e, -, -⟩ := C75_ok_but_off u u0 u1 d a hd ha
  have w : arm1.Wf (track (Fl (greedy u u0 u1))) := ⟨by simp [arm1, track, NodeImpl.fresh, Joint.new, Movable], rfl⟩
  have sb := solve_sameBut (fun _ => rfl) w e
  obtain ⟨X, eX, hX⟩ := C75_solve 0 _ _ _ _ _ _ (track ℝ) (fun _ => rfl) (fun _ => rfl) w
    (fun n r hr => by simp [track, NodeImpl.fresh, Joint.new] at hr)
    (fun n _ r hr => by simp [track, NodeImpl.fresh, Joint.new] at hr) (track_rounds _) e (by
      intro n _ v hv
      obtain ⟨p, wt, wv, en⟩ := sb.node n
      rw [en] at hv
      simp [track, NodeImpl.fresh, Joint.new] at hv)
  exact ⟨f', X, e, eX, hX⟩

end
end K
