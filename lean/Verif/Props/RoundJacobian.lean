import Verif.Props.Round
import Verif.Props.Jacobian
import Verif.Props.Com
/-!
# C84: the Jacobian and the center of mass in rounded arithmetic
-/

namespace K
open Prog

noncomputable section

variable {A : Arith}

/-- number of roundings that enter a column of the Jacobian of a chain with `n` joints -/
def jacOps (B n : ℕ) : ℕ := 10 * rotOps B n + posOps B n + 70

/-- the size that the error of the linear part of the column of node `n` is relative to: a slider moves the end
by as much as it is moved, a turning joint is at most two reaches of the arm away from the end -/
def columnScale (h : KHeap ℝ) (arm : Chain) (n : NodeId) : ℝ :=
  match (h.get n).joint.jointType with
  | .rotational _ => 2 * reach h arm.nodes
  | _ => 1

theorem rotOps_mono {B m n : ℕ} (h : m ≤ n) : rotOps B m ≤ rotOps B n := Nat.mul_le_mul_right _ h
theorem posOps_mono {B m n : ℕ} (h : m ≤ n) : posOps B m ≤ posOps B n :=
  Nat.add_le_add_right (Nat.mul_le_mul_right _ h) _

theorem stepLength_nonneg (j : Joint ℝ) : 0 ≤ stepLength j := by
  rw [stepLength]
  have := j.origin.trans.norm_nonneg'
  split
  · positivity
  · linarith

/-- the joints above a node of a chain are no more and reach no further than those of the chain -/
theorem Lineage.within {h : KHeap ℝ} {n : NodeId} {ps ns : List NodeId} (l : Lineage h n ps)
    (hs : ∀ k ∈ ps, k ∈ ns) : ps.length ≤ ns.length ∧ reach h ps ≤ reach h ns := by
  have sp := l.nodup'.subperm hs
  refine ⟨sp.length_le, ?_⟩
  obtain ⟨l', p, s⟩ := sp
  rw [reach, ← (p.map fun n => stepLength (h.get n).joint).sum_eq]
  refine (s.map _).sum_le_sum ?_
  intro x hx
  obtain ⟨n, -, rfl⟩ := List.mem_map.1 hx
  exact stepLength_nonneg _

theorem RoundsOn.wf {B : ℕ} {arm : Chain} {f : KHeap (Fl A)} {h : KHeap ℝ} (r : RoundsOn B arm.nodes f h)
    (w : arm.Wf h) : arm.Wf f := by
  refine ⟨w.movable.trans ?_, w.dof⟩
  refine List.filter_congr fun n hn => ?_
  have k := (r n hn).kind
  have : Movable h n ↔ Movable f n := by
    unfold Movable
    revert k
    cases (f.get n).joint.jointType <;> cases (h.get n).joint.jointType <;> simp
  exact decide_eq_decide.2 this

/-- rounding in one column -/
theorem column_near {B N : ℕ} {L : ℝ} {a : Joint (Fl A)} {j : Joint ℝ} (r : a.Rounds B j) {p : V3 (Fl A)}
    {q : V3 ℝ} {t : Iso (Fl A)} {X : Iso ℝ} (hp : VNear ((1 + A.u) ^ posOps B N) L p q)
    (hX : INear ((1 + A.u) ^ rotOps B N) ((1 + A.u) ^ posOps B N) L t X) {cf : List (Fl A)} {ch : List ℝ}
    (ef : jacobianColumn p a t = .ok cf) (eh : jacobianColumn q j X = .ok ch) :
    ∃ d w v x, cf.map Fl.val = twist d w ∧ ch = twist v x ∧
      (d.sub v).norm ≤ ((1 + A.u) ^ jacOps B N - 1) * (match j.jointType with
        | .rotational _ => 2 * L
        | _ => 1) ∧
      (w.sub x).norm ≤ (1 + A.u) ^ jacOps B N - 1 := by
  have pk := one_le_pow_u (A := A)
  have rg := r.rigid.2
  have k := r.kind
  have turn : ∀ {b : V3 (Fl A)} {c : V3 ℝ}, c.IsUnit → (b.val.sub c).norm ≤ A.u →
      VNear ((1 + A.u) ^ (10 * rotOps B N + 65)) 1 (t.rot.rotate b) (X.rot.rotate c) := by
    intro b c uc hb
    have := VNear.rotate (s := (1 + A.u) ^ 1) (m := 1) hX.rot hX.rigid
      ⟨uc.norm.le, by rw [pow_one]; linarith⟩ (pk _) (pk 1)
    refine this.mono ?_ (le_of_eq ?_) le_rfl
    · exact one_le_pow₀ (by
        have := pk (rotOps B N); have := pk 1; have := pk 12
        exact one_le_mul_of_one_le_of_one_le (one_le_mul_of_one_le_of_one_le (one_le_pow₀ (pk _)) (pk _)) (pk _))
    · rw [← pow_mul, ← pow_add, ← pow_add, ← pow_mul]; congr 1; ring
  have z : (V3.zero : V3 ℝ).sub V3.zero = V3.zero := by ext <;> simp [V3.sub, V3.zero]
  have z0 : (V3.zero : V3 ℝ).norm = 0 := by simp [V3.norm, V3.zero, Scalar.sqrt]
  revert rg k ef eh
  unfold jacobianColumn
  cases a.jointType <;> cases j.jointType <;> intro ef eh rg k <;> dsimp only at k rg ef eh ⊢ <;>
    try exact k.elim
  · cases ef
  · rename_i b c
    cases ef; cases eh
    have ai := turn rg k.1
    have dp := hp.sub hX.trans (pk _)
    rw [← pow_succ] at dp
    have cr := ai.cross dp (pk _) (pk _)
    rw [← pow_add, ← pow_add, one_mul] at cr
    refine ⟨((t.rot.rotate b).cross (p.sub t.trans)).val, (t.rot.rotate b).val, _, _, rfl, rfl, ?_, ?_⟩
    · have e : 10 * rotOps B N + 65 + (posOps B N + 1) + 4 = jacOps B N := by simp only [jacOps]; omega
      rw [e, ← two_mul] at cr
      exact cr.err
    · refine ai.err.trans ?_
      rw [mul_one]
      have : (1 + A.u) ^ (10 * rotOps B N + 65) ≤ (1 + A.u) ^ jacOps B N := pow_u_mono (by simp only [jacOps]; omega)
      linarith
  · rename_i b c
    cases ef; cases eh
    have ai := turn rg k
    refine ⟨(t.rot.rotate b).val, V3.zero, X.rot.rotate c, V3.zero, rfl, rfl, ?_, ?_⟩
    · refine ai.err.trans (mul_le_mul_of_nonneg_right ?_ zero_le_one)
      have : (1 + A.u) ^ (10 * rotOps B N + 65) ≤ (1 + A.u) ^ jacOps B N := pow_u_mono (by simp only [jacOps]; omega)
      linarith
    · rw [z, z0]; linarith [pk (jacOps B N)]

/-- **C84, `jacobian`.**  The columns of the Jacobian that is computed with rounding are those of the ideal
Jacobian up to `(1 + u)^k - 1`, for the linear part of a turning joint times two reaches of the arm. -/
theorem C84_jacobian (B : ℕ) (arm : Chain) (f : KHeap (Fl A)) (h : KHeap ℝ) (uf : f.Unlocked) (uh : h.Unlocked)
    (w : arm.Wf h) (par : ∀ n, liveParent f n = liveParent h n) (pa : ParentsAhead h arm.nodes)
    (r : RoundsOn B arm.nodes f h) :
    ∃ jf f' jh h', run (jacobian arm) f = .ok jf f' ∧ run (jacobian arm) h = .ok jh h' ∧
      jf.length = arm.dof ∧ jh.length = arm.dof ∧
      ∀ (i : Nat) n cf ch, arm.movableNodes[i]? = some n → jf[i]? = some cf → jh[i]? = some ch →
        ∃ d a v x, cf.map Fl.val = twist d a ∧ ch = twist v x ∧
          (d.sub v).norm ≤ ((1 + A.u) ^ jacOps B arm.nodes.length - 1) * columnScale h arm n ∧
          (a.sub x).norm ≤ (1 + A.u) ^ jacOps B arm.nodes.length - 1 := by
  have wf := r.wf w
  obtain ⟨jf, f', ef, of, cf', Ff⟩ := run_jacobian arm f uf wf (pa.congr par).ready
  obtain ⟨jh, h', eh, oh, ch', Fh⟩ := run_jacobian arm h uh w pa.ready
  refine ⟨jf, f', jh, h', ef, eh, by rw [← Ff.length_eq, w.dof], by rw [← Fh.length_eq, w.dof], ?_⟩
  intro i n cf ch hn hcf hch
  have get : ∀ {T : Type} [Scalar T] {g : KHeap T} {p : V3 T} {jac : Mat T}
      (_ : List.Forall₂ (IsColumn g p) arm.movableNodes jac) (c : List T), jac[i]? = some c → IsColumn g p n c := by
    intro T _ g p jac F c hc
    obtain ⟨hi, en⟩ := List.getElem?_eq_some_iff.1 hn
    obtain ⟨hj, ec⟩ := List.getElem?_eq_some_iff.1 hc
    have := (List.forall₂_iff_get.1 F).2 i hi hj
    simpa [en, ec] using this
  have nm : n ∈ arm.nodes := w.sub n (List.mem_of_getElem? hn)
  obtain ⟨t, et, jt⟩ := get Ff cf hcf
  obtain ⟨X, eX, jX⟩ := get Fh ch hch
  obtain ⟨t', wt, et'⟩ := cf' n nm
  obtain ⟨X', wX, eX'⟩ := ch' n nm
  rw [et] at et'; cases et'
  rw [eX] at eX'; cases eX'
  obtain ⟨ps, l, hs⟩ := parentsAhead_lineage pa nm
  obtain ⟨le, re⟩ := l.within hs
  have near := (World.near par (wt.world (pa.congr par).closed nm) (wX.world pa.closed nm) l
    fun k hk => r k (hs k hk)).mono (rotOps_mono le) (posOps_mono le) re
  have tip := (INear.start (A := A) B).fold arm.nodes r
  rw [zero_add, zero_add] at tip
  have rj : (f'.get n).joint.Rounds B (h'.get n).joint := by
    have q := r n nm
    have sf : SameButWorld _ _ := of.same n
    have sh : SameButWorld _ _ := oh.same n
    rw [SameButWorld] at sf sh
    rw [sf, sh]
    exact ⟨q.rigid, q.originTrans, q.originRot, q.kind, q.position⟩
  obtain ⟨d, a, v, x, e1, e2, e3, e4⟩ := column_near rj tip.trans near jt jX
  refine ⟨d, a, v, x, e1, e2, ?_, e4⟩
  rw [(oh.same n).jointType] at e3
  exact e3

theorem twist_inj {d a v x : V3 ℝ} (e : twist d a = twist v x) : d = v ∧ a = x := by
  simp only [twist, List.cons.injEq, and_true] at e
  obtain ⟨h1, h2, h3, h4, h5, h6⟩ := e
  exact ⟨V3.ext h1 h2 h3, V3.ext h4 h5 h6⟩

/-- **C84, the computed Jacobian and the true velocities.**  For a chain that starts at the root: the linear
part of a computed column is the derivative of the ideal position of the end with respect to the ideal joint
position, and the angular part is the angular velocity, up to the same errors. -/
theorem C84_derivative (B : ℕ) (arm : Chain) (f : KHeap (Fl A)) (h : KHeap ℝ) (uf : f.Unlocked) (uh : h.Unlocked)
    (w : arm.Wf h) (par : ∀ n, liveParent f n = liveParent h n) (n : NodeId) (rest : List NodeId)
    (hc : arm.nodes = n :: rest) (s : Serial h arm.nodes) (nd : arm.nodes.Nodup) (root : liveParent h n = none)
    (r : RoundsOn B arm.nodes f h) :
    ∃ jf f', run (jacobian arm) f = .ok jf f' ∧ jf.length = arm.dof ∧
      ∀ (i : Nat) (k : NodeId) (cf : List (Fl A)), arm.movableNodes[i]? = some k → jf[i]? = some cf →
        ∃ (q : ℝ) (T : ℝ → Iso ℝ) (d a v x : V3 ℝ), run (Node.jointPosition k) h = .ok (some q) h ∧
          (∀ y, ∃ g, run (endAt arm k y) h = .ok (T y) g) ∧
          V3.HasDeriv (fun y => (T y).trans) v q ∧
          (∀ b, V3.HasDeriv (fun y => (T y).rot.rotate b) (x.cross ((T q).rot.rotate b)) q) ∧
          cf.map Fl.val = twist d a ∧
          (d.sub v).norm ≤ ((1 + A.u) ^ jacOps B arm.nodes.length - 1) * columnScale h arm k ∧
          (a.sub x).norm ≤ (1 + A.u) ^ jacOps B arm.nodes.length - 1 := by
  have pa : ParentsAhead h arm.nodes := by rw [hc]; rw [hc] at s; exact s.parentsAhead root
  obtain ⟨jf, f', jh, h', ef, eh, lf, lh, near⟩ := C84_jacobian B arm f h uf uh w par pa r
  obtain ⟨jac, g, e, l, C⟩ := C21_jacobian h uh arm w n rest hc s nd root fun m hm => (r m hm).rigid
  rw [eh] at e
  cases e
  refine ⟨jf, f', ef, lf, fun i k cf hk hcf => ?_⟩
  obtain ⟨hi, -⟩ := List.getElem?_eq_some_iff.1 hk
  have hl : i < jh.length := by rw [lh, w.dof]; exact hi
  obtain ⟨d, a, v, x, e1, e2, e3, e4⟩ := near i k cf jh[i] hk hcf (List.getElem?_eq_getElem hl)
  obtain ⟨q, T, v', x', p1, p2, p3, p4, p5⟩ := C i k jh[i] hk (List.getElem?_eq_getElem hl)
  obtain ⟨rfl, rfl⟩ := twist_inj (e2.symm.trans p3)
  exact ⟨q, T, d, a, v, x, p1, p2, p4, p5, e1, e3, e4⟩

/-! ## the center of mass -/

/-- the link in rounded numbers stands for the ideal one, whose mass is not negative -/
structure Link.Rounds (a : Link (Fl A)) (l : Link ℝ) : Prop where
  nonneg : 0 ≤ l.inertial.mass
  mass : |a.inertial.mass.val - l.inertial.mass| ≤ A.u * l.inertial.mass
  offset : (a.inertial.origin.trans.val.sub l.inertial.origin.trans).norm ≤ A.u * l.inertial.origin.trans.norm

/-- the links of the listed nodes stand for ideal ones -/
def LinksRound (ns : List NodeId) (f : KHeap (Fl A)) (h : KHeap ℝ) : Prop :=
  ∀ n ∈ ns, Option.Rel Link.Rounds (f.get n).link (h.get n).link

/-- number of roundings that enter the center of mass -/
def comOps (B n : ℕ) : ℕ := posOps B n + n + 3

/-- the loop of `center_of_mass` -/
def comSum {T : Type} [Scalar T] (h : KHeap T) : List NodeId → List (Iso T) → ComAcc T → ComAcc T
  | n :: ns, X :: Xs, acc => comSum h ns Xs (comAdd acc (some X) (h.get n).link)
  | _, _, acc => acc

theorem run_comSum {T : Type} [Scalar T] (h h' : KHeap T) (u : h'.Unlocked) (ns : List NodeId) (Xs : List (Iso T))
    (lk : ∀ n, (h'.get n).link = (h.get n).link)
    (c : List.Forall₂ (fun n X => run (Node.worldTransform n) h' = .ok (some X) h') ns Xs) (acc : ComAcc T) :
    run (comLoop ns acc) h' = .ok (comSum h ns Xs acc) h' := by
  induction c generalizing acc with
  | nil => rfl
  | @cons n X ns Xs e _ ih =>
    simp only [comLoop, run_bind, e, Res.bind_ok, run_Node_link n h' (u n), ih, comSum, lk n]

/-- `center_of_mass` as a sum -/
theorem run_centerOfMass {T : Type} [Scalar T] [LawfulOrd T] (h : KHeap T) (u : h.Unlocked) (c : Chain)
    (pa : ParentsAhead h c.nodes) :
    ∃ Xs h', List.Forall₂ (World h) c.nodes Xs ∧ run (centerOfMass c) h =
      .ok ((comSum h c.nodes Xs ⟨0, V3.zero⟩).com.unscale (comSum h c.nodes Xs ⟨0, V3.zero⟩).totalMass) h' := by
  obtain ⟨Xs, h', e, w, cache, ow, -⟩ := C12_update_transforms h u c pa
  refine ⟨Xs, h', w, ?_⟩
  have cs : List.Forall₂ (fun n X => run (Node.worldTransform n) h' = .ok (some X) h') c.nodes Xs := by
    have : ∀ (ns : List NodeId) (Xs : List (Iso T)), (∀ n ∈ ns, n ∈ c.nodes) →
        List.Forall₂ (World h) ns Xs →
        List.Forall₂ (fun n X => run (Node.worldTransform n) h' = .ok (some X) h') ns Xs := by
      intro ns Xs hs w
      induction w with
      | nil => exact .nil
      | @cons n X ns Xs wn _ ih =>
        refine .cons ?_ (ih fun m hm => hs m (by simp [hm]))
        obtain ⟨Y, wy, ey⟩ := cache n (hs n (by simp))
        rwa [wn.unique wy]
    exact this _ _ (fun _ h => h) w
  simp only [centerOfMass, run_bind, e, Res.bind_ok, run_comSum h h' (ow.unlocked u) c.nodes Xs
    (fun n => by have : SameButWorld _ _ := ow.same n; rw [this]) cs]
  rfl

/-- the sums so far -/
structure ComNear (k : ℕ) (M D : ℝ) (a : ComAcc (Fl A)) (b : ComAcc ℝ) : Prop where
  mass : SNear ((1 + A.u) ^ k) M a.totalMass b.totalMass
  com : VNear ((1 + A.u) ^ k) (D * M) a.com b.com

/-- mass of a link, if any -/
def linkMass : Option (Link ℝ) → ℝ
  | some l => l.inertial.mass
  | none => 0

theorem massOf_eq (h : KHeap ℝ) (n : NodeId) : massOf h n = linkMass (h.get n).link := by
  rw [massOf]; cases (h.get n).link <;> rfl

theorem ComNear.add {B N k : ℕ} {M L D : ℝ} {a : ComAcc (Fl A)} {b : ComAcc ℝ} (hk : posOps B N + 3 ≤ k)
    (c : ComNear k M D a b) {t : Iso (Fl A)} {X : Iso ℝ}
    (i : INear ((1 + A.u) ^ rotOps B N) ((1 + A.u) ^ posOps B N) L t X) {p : Option (Link (Fl A))}
    {q : Option (Link ℝ)} (r : Option.Rel Link.Rounds p q) (far : ∀ l ∈ q, L + l.inertial.origin.trans.norm ≤ D) :
    ComNear (k + 1) (M + linkMass q) D (comAdd a (some t) p)
      (comAdd b (some X) q) := by
  have pk := one_le_pow_u (A := A)
  cases r with
  | none =>
    rw [linkMass, add_zero]
    exact ⟨c.mass.mono (pk _) (pow_u_mono (by omega)) le_rfl, c.com.mono (pk _) (pow_u_mono (by omega)) le_rfl⟩
  | @some p l r =>
    have m : SNear ((1 + A.u) ^ 1) l.inertial.mass p.inertial.mass l.inertial.mass :=
      ⟨(abs_of_nonneg r.nonneg).le, by rw [pow_one]; linarith [r.mass]⟩
    have o : VNear ((1 + A.u) ^ 1) l.inertial.origin.trans.norm p.inertial.origin.trans l.inertial.origin.trans :=
      ⟨le_rfl, by rw [pow_one]; linarith [r.offset]⟩
    have ro := VNear.rotate i.rot i.rigid o (pk _) (pk _)
    rw [← pow_mul, ← pow_add, ← pow_add, ← pow_mul] at ro
    have ro' := ro.mono (r' := (1 + A.u) ^ posOps B N) (pk _) (pow_u_mono (by
      simp only [rotOps, posOps]; ring_nf; omega)) le_rfl
    have po := i.trans.add ro' (pk _)
    rw [← pow_succ] at po
    have mo := (po.mono (pk _) le_rfl (far l rfl)).scale m (pk _) (pk _)
    rw [← pow_add, ← pow_succ] at mo
    have mo' := mo.mono (r' := (1 + A.u) ^ k) (pk _) (pow_u_mono (by omega)) le_rfl
    refine ⟨?_, ?_⟩
    · have := c.mass.add (m.mono (r' := (1 + A.u) ^ k) (pk _) (pow_u_mono (by omega)) le_rfl) (pk _)
      rw [← pow_succ] at this
      exact this
    · have := c.com.add mo' (pk _)
      rw [← pow_succ, ← mul_add] at this
      exact this

theorem comSum_near {B N k : ℕ} {D M L : ℝ} {f : KHeap (Fl A)} {h : KHeap ℝ} (hk : posOps B N + 3 ≤ k)
    (ns : List NodeId) (as : List (Iso (Fl A))) (Xs : List (Iso ℝ)) (la : as.length = ns.length)
    (lX : Xs.length = ns.length)
    (i : ∀ (j : Nat) a X, as[j]? = some a → Xs[j]? = some X →
      INear ((1 + A.u) ^ rotOps B N) ((1 + A.u) ^ posOps B N) L a X)
    (lr : LinksRound ns f h) (far : ∀ n ∈ ns, ∀ l ∈ (h.get n).link, L + l.inertial.origin.trans.norm ≤ D)
    (a : ComAcc (Fl A)) (b : ComAcc ℝ) (c : ComNear k M D a b) :
    ComNear (k + ns.length) (M + totalMass h ns) D (comSum f ns as a) (comSum h ns Xs b) := by
  induction ns generalizing k M as Xs a b with
  | nil => simpa [comSum, totalMass] using c
  | cons n ns ih =>
    cases as with
    | nil => cases la
    | cons t as =>
    cases Xs with
    | nil => cases lX
    | cons X Xs =>
      have := ih (k := k + 1) (by omega) as Xs (by simpa using la) (by simpa using lX)
        (fun j => i (j + 1)) (fun m hm => lr m (List.mem_cons_of_mem _ hm))
        (fun m hm => far m (List.mem_cons_of_mem _ hm)) _ _
        (c.add hk (i 0 t X rfl rfl) (lr n (by simp)) (far n (by simp)))
      have e : k + 1 + ns.length = k + (n :: ns).length := by simp; omega
      rw [e, add_assoc] at this
      simpa [comSum, totalMass, massOf_eq] using this

theorem V3.unscale_eq (v : V3 ℝ) (t : ℝ) : v.unscale t = v.scale t⁻¹ := by
  ext <;> simp [V3.unscale, V3.scale, div_eq_mul_inv]

/-- dividing the sums -/
theorem ComNear.divide {k : ℕ} (hk : 1 ≤ k) {M D : ℝ} {a : ComAcc (Fl A)} {b : ComAcc ℝ} (c : ComNear k M D a b)
    (hM : b.totalMass = M) (pos : 0 < M) (small : (1 + A.u) ^ k - 1 ≤ 1 / 2) :
    ((a.com.unscale a.totalMass).val.sub (b.com.unscale b.totalMass)).norm ≤ 7 * ((1 + A.u) ^ k - 1) * D := by
  obtain ⟨⟨-, m2⟩, ⟨c1, c2⟩⟩ := c
  have u0 := A.u_nonneg
  have g0 : 0 ≤ (1 + A.u) ^ k - 1 := by linarith [one_le_pow_u (A := A) k]
  have gu : A.u ≤ (1 + A.u) ^ k - 1 := by
    have := pow_u_mono (A := A) hk
    rw [pow_one] at this; linarith
  rw [hM] at m2 ⊢
  generalize (1 + A.u) ^ k - 1 = g at *
  have D0 : 0 ≤ D := by
    have := b.com.norm_nonneg'.trans c1
    exact nonneg_of_mul_nonneg_left this pos
  set t := a.totalMass.val with ht
  have t2 : M / 2 ≤ t := by
    have := (abs_le.1 m2).1
    nlinarith
  have t0 : 0 < t := by linarith
  let z : V3 ℝ := a.com.val.unscale t
  have size : (b.com.unscale M).norm ≤ D := by
    rw [V3.unscale_eq, V3.norm_scale, abs_of_pos (inv_pos.2 pos), ← div_eq_mul_inv, div_le_iff₀ pos]
    exact c1
  have err : (z.sub (b.com.unscale M)).norm ≤ (1 + 4 * g - 1) * D := by
    have e : z.sub (b.com.unscale M) =
        (((a.com.val.sub b.com).scale M).add (b.com.scale (M - t))).scale (t * M)⁻¹ := by
      have hM0 := pos.ne'
      have ht0 := t0.ne'
      ext <;> simp only [z, V3.sub, V3.unscale, V3.add, V3.scale] <;> field_simp <;> ring
    rw [e, V3.norm_scale, abs_of_pos (inv_pos.2 (mul_pos t0 pos)), ← div_eq_mul_inv, div_le_iff₀ (mul_pos t0 pos)]
    refine (V3.norm_add_le _ _).trans ?_
    rw [V3.norm_scale, V3.norm_scale, abs_of_pos pos, abs_sub_comm]
    have h1 : (a.com.val.sub b.com).norm * M ≤ g * (D * M) * M := mul_le_mul_of_nonneg_right c2 pos.le
    have h2 : b.com.norm * |t - M| ≤ (D * M) * (g * M) := mul_le_mul c1 m2 (abs_nonneg _) (by positivity)
    have h3 : 4 * g * D * (M / 2 * M) ≤ 4 * g * D * (t * M) :=
      mul_le_mul_of_nonneg_left (mul_le_mul_of_nonneg_right t2 pos.le) (by positivity)
    nlinarith
  have := (VNear.round (a := a.com.unscale a.totalMass) (z := z) (by linarith) size err (A.div_err _ _ t0.ne')
    (A.div_err _ _ t0.ne') (A.div_err _ _ t0.ne')).err
  refine this.trans (mul_le_mul_of_nonneg_right ?_ D0)
  nlinarith

theorem comSum_mass (h : KHeap ℝ) (ns : List NodeId) (Xs : List (Iso ℝ)) (l : Xs.length = ns.length)
    (acc : ComAcc ℝ) : (comSum h ns Xs acc).totalMass = acc.totalMass + totalMass h ns := by
  induction ns generalizing Xs acc with
  | nil => simp [comSum, totalMass]
  | cons n ns ih =>
    cases Xs with
    | nil => cases l
    | cons X Xs =>
      rw [comSum, ih Xs (by simpa using l)]
      simp only [totalMass, List.map_cons, List.sum_cons, massOf, comAdd]
      cases (h.get n).link <;> simp [add_assoc]

/-- **C84, `center_of_mass`.**  With links of masses that are not negative, at most `D` away, the computed
center of mass is the ideal one up to seven times `(1 + u)^k - 1` times `D`, as long as `(1 + u)^k - 1` is at
most one half. -/
theorem C84_center_of_mass (B : ℕ) (c : Chain) (f : KHeap (Fl A)) (h : KHeap ℝ) (uf : f.Unlocked) (uh : h.Unlocked)
    (par : ∀ n, liveParent f n = liveParent h n) (pa : ParentsAhead h c.nodes) (r : RoundsOn B c.nodes f h)
    (lr : LinksRound c.nodes f h) (D : ℝ)
    (far : ∀ n ∈ c.nodes, ∀ l, (h.get n).link = some l →
      reach h c.nodes + l.inertial.origin.trans.norm ≤ D)
    (pos : 0 < totalMass h c.nodes) (small : (1 + A.u) ^ comOps B c.nodes.length - 1 ≤ 1 / 2) :
    ∃ a f' v h', run (centerOfMass c) f = .ok a f' ∧ run (centerOfMass c) h = .ok v h' ∧
      (a.val.sub v).norm ≤ 7 * ((1 + A.u) ^ comOps B c.nodes.length - 1) * D := by
  obtain ⟨as, f', wf, ef⟩ := run_centerOfMass f uf c (pa.congr par)
  obtain ⟨Xs, h', wh, eh⟩ := run_centerOfMass h uh c pa
  refine ⟨_, f', _, h', ef, eh, ?_⟩
  have near : ∀ (j : Nat) a X, as[j]? = some a → Xs[j]? = some X →
      INear ((1 + A.u) ^ rotOps B c.nodes.length) ((1 + A.u) ^ posOps B c.nodes.length) (reach h c.nodes) a X := by
    intro j a X ha hX
    obtain ⟨ja, ea⟩ := List.getElem?_eq_some_iff.1 ha
    obtain ⟨jX, eX⟩ := List.getElem?_eq_some_iff.1 hX
    have jn : j < c.nodes.length := by rw [wf.length_eq]; exact ja
    have wa := (List.forall₂_iff_get.1 wf).2 j jn ja
    have wX := (List.forall₂_iff_get.1 wh).2 j jn jX
    simp only [List.get_eq_getElem, ea, eX] at wa wX
    have nm : c.nodes[j] ∈ c.nodes := List.getElem_mem jn
    obtain ⟨ps, l, hs⟩ := parentsAhead_lineage pa nm
    obtain ⟨le, re⟩ := l.within hs
    exact (World.near par wa wX l fun k hk => r k (hs k hk)).mono (rotOps_mono le) (posOps_mono le) re
  have S := comSum_near (k := posOps B c.nodes.length + 3) (D := D) (M := 0) le_rfl c.nodes as Xs wf.length_eq.symm
    wh.length_eq.symm near lr (fun n hn l hl => far n hn l hl) ⟨0, V3.zero⟩ ⟨0, V3.zero⟩ ⟨⟨by simp, by simp⟩, by
      have := (INear.one (A := A)).trans.mono (r' := (1 + A.u) ^ (posOps B c.nodes.length + 3)) (one_le_pow_u 0)
        (pow_u_mono (Nat.zero_le _)) le_rfl
      rw [mul_zero]; exact this⟩
  have ek : posOps B c.nodes.length + 3 + c.nodes.length = comOps B c.nodes.length := by simp only [comOps]; omega
  rw [ek, zero_add] at S
  refine S.divide (by simp only [comOps]; omega) ?_ pos small
  rw [comSum_mass h c.nodes Xs wh.length_eq.symm, zero_add]

/-! ## concrete cases -/

/-- one hinge about z, turned by 1, that carries a link of mass 1 at distance 1 -/
def pendulum (T : Type) [Scalar T] : KHeap T :=
  { get := fun _ => { (NodeImpl.fresh { Joint.new "p" (.rotational ⟨0, 0, 1⟩) with position := 1 } : NodeImpl T) with
      link := some ⟨"bob", ⟨⟨⟨1, 0, 0⟩, Quat.one⟩, 1, M3.one, none⟩, [], []⟩ }
    next := 1, dead := fun _ => false, held := fun _ => false }

theorem pendulum_rounds (ns : List NodeId) : RoundsOn (A := A) 1 ns (pendulum (Fl A)) (pendulum ℝ) := by
  intro n _
  refine ⟨⟨?_, ?_⟩, ?_, ?_, ?_, ?_⟩
  · simp [pendulum, NodeImpl.fresh, Joint.new, Iso.IsRigid, Iso.one, Quat.one_isUnit]
  · simp [pendulum, NodeImpl.fresh, Joint.new, V3.IsUnit]
  · simp [pendulum, NodeImpl.fresh, Joint.new, Iso.one, V3.zero, V3.val, V3.sub, V3.norm, Scalar.sqrt]
  · simpa [pendulum, NodeImpl.fresh, Joint.new, Iso.one, Quat.one, Quat.val, Quat.diff, Quat.len] using A.u_nonneg
  · simpa [pendulum, NodeImpl.fresh, Joint.new, V3.val, V3.sub, V3.norm, Scalar.sqrt] using A.u_nonneg
  · simpa [pendulum, NodeImpl.fresh, Joint.new] using A.u_nonneg

theorem pendulum_links (ns : List NodeId) : LinksRound (A := A) ns (pendulum (Fl A)) (pendulum ℝ) := by
  intro n _
  refine .some ⟨zero_le_one, ?_, ?_⟩
  · simpa using A.u_nonneg
  · simpa [V3.val, V3.sub, V3.norm, Scalar.sqrt] using A.u_nonneg

theorem pendulum_root {T : Type} [Scalar T] (n : NodeId) : liveParent (pendulum T) n = none := rfl

theorem pendulum_wf {T : Type} [Scalar T] : arm1.Wf (pendulum T) :=
  ⟨by simp [arm1, pendulum, NodeImpl.fresh, Joint.new, Movable], rfl⟩

theorem pendulum_ahead {T : Type} [Scalar T] : ParentsAhead (pendulum T) arm1.nodes :=
  fun _ n _ _ => .inl (pendulum_root n)

/-- `C84_jacobian`, `C84_derivative` apply to the pendulum -/
example : ∃ jf f', run (jacobian arm1) (pendulum (Fl A)) = .ok jf f' ∧ jf.length = 1 ∧
    ∀ cf, jf[0]? = some cf → ∃ d a v x : V3 ℝ, cf.map Fl.val = twist d a ∧
      (d.sub v).norm ≤ ((1 + A.u) ^ jacOps 1 1 - 1) * columnScale (pendulum ℝ) arm1 0 ∧
      (a.sub x).norm ≤ (1 + A.u) ^ jacOps 1 1 - 1 := by
  obtain ⟨jf, f', e, l, p⟩ := C84_derivative (A := A) 1 arm1 (pendulum _) (pendulum ℝ) (fun _ => rfl) (fun _ => rfl)
    pendulum_wf (fun _ => rfl) 0 [] rfl (by
      intro pre a b post e
      have := congrArg List.length e
      simp [arm1] at this
      omega) (by simp [arm1]) rfl (pendulum_rounds _)
  refine ⟨jf, f', e, l, fun cf hcf => ?_⟩
  obtain ⟨q, T, d, a, v, x, -, -, -, -, h1, h2, h3⟩ := p 0 0 cf rfl hcf
  exact ⟨d, a, v, x, h1, h2, h3⟩

/-- `C84_center_of_mass` applies to the pendulum, here with an error of at most 1.1 percent -/
example (u0 : (0 : ℝ) ≤ 1 / 1000000) (u1 : (1 : ℝ) / 1000000 ≤ 1 / 2) :
    ∃ a f' v h', run (centerOfMass arm1) (pendulum (Fl (greedy _ u0 u1))) = .ok a f' ∧
      run (centerOfMass arm1) (pendulum ℝ) = .ok v h' ∧ (a.val.sub v).norm ≤ 11 / 1000 := by
  have sm : (1 + (greedy _ u0 u1).u) ^ comOps 1 arm1.nodes.length - 1 ≤ 2 * (785 * (1 / 1000000)) := by
    have := pow_u_le (A := greedy _ u0 u1) 785 (by norm_num [greedy])
    exact this
  have rc : reach (pendulum ℝ) arm1.nodes = 0 := by
    simp [reach, arm1, pendulum, NodeImpl.fresh, Joint.new, stepLength, Iso.one, V3.zero, V3.norm, Scalar.sqrt]
  obtain ⟨a, f', v, h', e1, e2, e3⟩ := C84_center_of_mass (A := greedy _ u0 u1) 1 arm1 (pendulum _) (pendulum ℝ)
    (fun _ => rfl) (fun _ => rfl) (fun _ => rfl) pendulum_ahead (pendulum_rounds _) (pendulum_links _) 1
    (by
      intro n _ l hl
      cases hl
      rw [rc]
      simp [V3.norm, Scalar.sqrt])
    (by simp [totalMass, massOf, arm1, pendulum])
    (by linarith)
  exact ⟨a, f', v, h', e1, e2, e3.trans (by linarith)⟩

end
end K
