import Verif.Props.Frame
import Verif.Props.IkLocalEx
/-!
# C85: exact linear algebra does not depend on the axes; constraints that do
-/

namespace K
open Prog Matrix

noncomputable section

/-! ## Turning as a matrix -/

theorem turnCol_vadd (R : Quat ℝ) (a b : List ℝ) (e : a.length = b.length) :
    turnCol R (vadd a b) = vadd (turnCol R a) (turnCol R b) := by
  fun_induction turnCol R a generalizing b with
  | case1 x y z rest ih =>
    match b, e with
    | x' :: y' :: z' :: rest', e =>
      have := ih rest' (by simpa using e)
      have ra := Quat.rotate_add R ⟨x, y, z⟩ ⟨x', y', z'⟩
      simp only [V3.add] at ra
      simp only [vadd, turnCol, List.zipWith_cons_cons] at this ⊢
      rw [this, ra]
  | case2 a na =>
    match a, b, e with
    | [], [], _ => rfl
    | [_], [_], _ => rfl
    | [_, _], [_, _], _ => rfl
    | x :: y :: z :: r, _, _ => exact absurd rfl (na x y z r)

theorem turnCol_scale (R : Quat ℝ) (a : List ℝ) (k : ℝ) :
    turnCol R (a.map (· * k)) = (turnCol R a).map (· * k) := by
  fun_induction turnCol R a with
  | case1 x y z rest ih =>
    have rs := Quat.rotate_scale R ⟨x, y, z⟩ k
    simp only [V3.scale] at rs
    simp only [turnCol, List.map_cons, ih, rs]
  | case2 a na =>
    match a with
    | [] => rfl
    | [_] => rfl
    | [_, _] => rfl
    | x :: y :: z :: r => exact absurd rfl (na x y z r)

theorem turnCol_zero (R : Quat ℝ) (n : Nat) : turnCol R (List.replicate n 0) = List.replicate n 0 := by
  match n with
  | 0 => rfl
  | 1 => rfl
  | 2 => rfl
  | n + 3 =>
    have z := Quat.rotate_zero R
    simp only [V3.zero] at z
    simp only [List.replicate_succ, turnCol, z, turnCol_zero R n]

theorem turnCol_matVec (R : Quat ℝ) (n : Nat) (J : Mat ℝ) (v : List ℝ) (hJ : ∀ col ∈ J, col.length = n) :
    turnCol R (matVec n J v) = matVec n (J.map (turnCol R)) v := by
  unfold matVec
  have : ∀ acc : List ℝ, acc.length = n →
      turnCol R ((List.zipWith (fun col x => col.map (· * x)) J v).foldl vadd acc) =
      (List.zipWith (fun col x => col.map (· * x)) (J.map (turnCol R)) v).foldl vadd (turnCol R acc) := by
    induction J generalizing v with
    | nil => intro acc _; rfl
    | cons c J ih =>
      intro acc la
      cases v with
      | nil => rfl
      | cons x v =>
        have lc := hJ c (by simp)
        simp only [List.map_cons, List.zipWith_cons_cons, List.foldl_cons]
        rw [ih v (fun col hc => hJ col (by simp [hc])) _ (by
          rw [vadd_length _ _ n la (by simpa using lc)]), turnCol_vadd _ _ _ (by simp [la, lc]), turnCol_scale]
  rw [this _ (by simp), turnCol_zero]

theorem dotL_turn {R : Quat ℝ} (u : R.IsUnit) (a b : List ℝ) (e : a.length = b.length) :
    dotL (turnCol R a) (turnCol R b) = dotL a b := by
  fun_induction turnCol R a generalizing b with
  | case1 x y z rest ih =>
    match b, e with
    | x' :: y' :: z' :: rest', e =>
      have := ih rest' (by simpa using e)
      have rd := Quat.rotate_dot u ⟨x, y, z⟩ ⟨x', y', z'⟩
      simp only [V3.dot] at rd
      simp only [turnCol, dotL, this]
      linear_combination rd
  | case2 a na =>
    match a, b, e with
    | [], [], _ => rfl
    | [_], [_], _ => rfl
    | [_, _], [_, _], _ => rfl
    | x :: y :: z :: r, _, _ => exact absurd rfl (na x y z r)

/-- `turnCol R` on lists of length `n` as a matrix -/
def turnMat (R : Quat ℝ) (n : Nat) : Matrix (Fin n) (Fin n) ℝ := toMat n n ((matOne n).map (turnCol R))

theorem matOne_length (n : Nat) : (matOne n : Mat ℝ).length = n := by simp [matOne]
theorem matOne_cols (n : Nat) : ∀ col ∈ (matOne n : Mat ℝ), col.length = n := by
  intro col h
  obtain ⟨c, -, rfl⟩ := List.mem_map.1 h
  simp

theorem toVec_inj {n : Nat} {a b : List ℝ} (la : a.length = n) (lb : b.length = n)
    (e : toVec n a = toVec n b) : a = b := by
  refine List.ext_getElem (la.trans lb.symm) fun k h1 h2 => ?_
  have := congrFun e ⟨k, la ▸ h1⟩
  simpa [toVec, List.getD_eq_getElem?_getD, List.getElem?_eq_getElem h1, List.getElem?_eq_getElem h2] using this

theorem toVec_turn (R : Quat ℝ) (n : Nat) (v : List ℝ) (lv : v.length = n) :
    toVec n (turnCol R v) = turnMat R n *ᵥ toVec n v := by
  have id : matVec n (matOne n) v = v := by
    refine toVec_inj (n := n) (matVec_length n _ _ (matOne_cols n)) lv ?_
    rw [toVec_matVec n n _ v (matOne_cols n) (matOne_length n) lv, toMat_matOne, Matrix.one_mulVec]
  have len : ∀ col ∈ (matOne n).map (turnCol R), col.length = n := by
    intro col h
    obtain ⟨c, hc, rfl⟩ := List.mem_map.1 h
    rw [turnCol_length, matOne_cols n c hc]
  conv_lhs => rw [← id, turnCol_matVec R n _ v (matOne_cols n)]
  exact toVec_matVec n n _ v len (by simp [matOne_length]) lv

theorem toMat_turn (R : Quat ℝ) (n k : Nat) (J : Mat ℝ) (lJ : J.length = k)
    (hJ : ∀ col ∈ J, col.length = n) : toMat n k (J.map (turnCol R)) = turnMat R n * toMat n k J := by
  ext i j
  have hj : j.val < J.length := by rw [lJ]; exact j.2
  have e := congrFun (toVec_turn R n (J[j.val]'hj) (hJ _ (List.getElem_mem hj))) i
  have a : toMat n k (J.map (turnCol R)) i j = toVec n (turnCol R (J[j.val]'hj)) i := by
    simp [toMat, toVec, List.getD_eq_getElem?_getD, hj]
  rw [a, e]
  simp only [Matrix.mulVec, Matrix.mul_apply, dotProduct]
  refine Finset.sum_congr rfl fun x _ => ?_
  simp [toMat, toVec, List.getD_eq_getElem?_getD, hj]

theorem turnMat_orthogonal {R : Quat ℝ} (u : R.IsUnit) (n : Nat) : (turnMat R n)ᵀ * turnMat R n = 1 := by
  have key : ∀ x y : Fin n → ℝ, (turnMat R n *ᵥ x) ⬝ᵥ (turnMat R n *ᵥ y) = x ⬝ᵥ y := by
    intro x y
    have hx := toVec_ofFn x
    have hy := toVec_ofFn y
    have lx : (List.ofFn x).length = n := List.length_ofFn
    have ly : (List.ofFn y).length = n := List.length_ofFn
    rw [← hx, ← hy, ← toVec_turn R n _ lx, ← toVec_turn R n _ ly,
      ← dotL_toVec n _ _ (by rw [turnCol_length, lx]) (by rw [turnCol_length, ly]),
      dotL_turn u _ _ (lx.trans ly.symm), dotL_toVec n _ _ lx ly]
  ext i j
  have := key (Pi.single i 1) (Pi.single j 1)
  rw [Matrix.mulVec_single_one, Matrix.mulVec_single_one] at this
  rw [Matrix.mul_apply, Matrix.one_apply]
  simp only [dotProduct, Matrix.col_apply, Pi.single_apply] at this
  simp only [Matrix.transpose_apply]
  rw [this]
  simp [eq_comm]

/-- turning the equations does not change the pseudoinverse solution -/
theorem pseudo_turn {n k : Nat} (Q : Matrix (Fin n) (Fin n) ℝ) (o : Qᵀ * Q = 1) (A : Matrix (Fin n) (Fin k) ℝ)
    (v : Fin n → ℝ) : ((Q * A)ᵀ * ((Q * A) * (Q * A)ᵀ)⁻¹) *ᵥ (Q *ᵥ v) = (Aᵀ * (A * Aᵀ)⁻¹) *ᵥ v := by
  have o' : Q * Qᵀ = 1 := mul_eq_one_comm.1 o
  have qi : Q⁻¹ = Qᵀ := Matrix.inv_eq_left_inv o
  have qti : (Qᵀ)⁻¹ = Q := Matrix.inv_eq_left_inv o'
  have e : (Q * A) * (Q * A)ᵀ = Q * ((A * Aᵀ) * Qᵀ) := by
    simp only [Matrix.transpose_mul, Matrix.mul_assoc]
  rw [Matrix.mulVec_mulVec, e, Matrix.mul_inv_rev, Matrix.mul_inv_rev, qi, qti, Matrix.transpose_mul]
  congr 1
  calc Aᵀ * Qᵀ * (Q * (A * Aᵀ)⁻¹ * Qᵀ) * Q = Aᵀ * (Qᵀ * Q) * (A * Aᵀ)⁻¹ * (Qᵀ * Q) := by
        simp only [Matrix.mul_assoc]
    _ = Aᵀ * (A * Aᵀ)⁻¹ := by rw [o, Matrix.mul_one, Matrix.mul_one]

/-- the solution of a square system of size `n` -/
def solveSquare (n : Nat) (J : Mat ℝ) (b : List ℝ) : Option (List ℝ) :=
  if (toMat n n J).det = 0 then none else some (List.ofFn ((toMat n n J)⁻¹ *ᵥ toVec n b))
/-- the shortest solution of a system of `n` equations in `k` unknowns -/
def solveWide (n k : Nat) (J : Mat ℝ) (b : List ℝ) : List ℝ :=
  List.ofFn (((toMat n k J)ᵀ * (toMat n k J * (toMat n k J)ᵀ)⁻¹) *ᵥ toVec n b)
/-- the matrix that computes it -/
def pinvWide (n k : Nat) (J : Mat ℝ) : Mat ℝ :=
  List.ofFn fun j : Fin n => List.ofFn fun i : Fin k => ((toMat n k J)ᵀ * (toMat n k J * (toMat n k J)ᵀ)⁻¹) i j

theorem pinvWide_apply (n k : Nat) (J : Mat ℝ) (v : List ℝ) (lv : v.length = n) :
    matVec k (pinvWide n k J) v = solveWide n k J v := by
  unfold pinvWide solveWide
  generalize (toMat n k J)ᵀ * (toMat n k J * (toMat n k J)ᵀ)⁻¹ = P
  have cl : ∀ col ∈ List.ofFn (fun j : Fin n => List.ofFn fun i : Fin k => P i j), col.length = k := by
    intro col hc
    obtain ⟨j, rfl⟩ := List.mem_ofFn.1 hc
    simp
  refine toVec_inj (matVec_length _ _ _ cl) List.length_ofFn ?_
  rw [toVec_matVec _ _ _ v cl List.length_ofFn lv, toVec_ofFn]
  congr 1
  ext i j
  simp [toMat, List.getD_eq_getElem?_getD]

theorem solveWide_turn {R : Quat ℝ} (u : R.IsUnit) (n k : Nat) (J : Mat ℝ) (b : List ℝ) (lJ : J.length = k)
    (lb : b.length = n) (hJ : ∀ col ∈ J, col.length = n) :
    solveWide n k (J.map (turnCol R)) (turnCol R b) = solveWide n k J b := by
  unfold solveWide
  rw [toMat_turn R n k J lJ hJ, toVec_turn R n b lb, pseudo_turn _ (turnMat_orthogonal u n)]

/-- exact linear algebra does not depend on the axes -/
theorem exactLa_turn : exactLa.TurnInvariant where
  lu := by
    intro R J b u _ lJ hJ
    show solveSquare (turnCol R b).length _ _ = solveSquare b.length J b
    rw [turnCol_length]
    have o := turnMat_orthogonal u b.length
    have d : (turnMat R b.length).det ≠ 0 := fun z => by
      have := congrArg Matrix.det o
      rw [Matrix.det_mul, z, mul_zero, Matrix.det_one] at this
      exact zero_ne_one this
    unfold solveSquare
    rw [toMat_turn R _ _ J lJ hJ, toVec_turn R _ b rfl, Matrix.det_mul]
    simp only [mul_eq_zero, d, false_or]
    split
    · rfl
    · rw [Matrix.mul_inv_rev, Matrix.mulVec_mulVec, Matrix.mul_assoc, Matrix.inv_eq_left_inv o, o,
        Matrix.mul_one]
  svd := by
    intro R J b u _ _ hJ
    show solveWide (turnCol R b).length (J.map (turnCol R)).length _ _ = solveWide b.length J.length J b
    rw [turnCol_length, List.length_map]
    exact solveWide_turn u _ _ J b rfl rfl hJ
  pinv := by
    intro R J v u _ lt hJ
    have hd : (J.headD []).length = v.length := by
      cases J with
      | nil => simp at lt
      | cons c J => exact hJ c (by simp)
    have hd' : ((J.map (turnCol R)).headD []).length = v.length := by
      cases J with
      | nil => simp at lt
      | cons c J => exact (turnCol_length R c).trans (hJ c (by simp))
    show matVec J.length (pinvWide ((J.map (turnCol R)).headD []).length (J.map (turnCol R)).length _) _ =
      matVec J.length (pinvWide (J.headD []).length J.length J) v
    rw [hd, hd', List.length_map, pinvWide_apply _ _ _ _ (turnCol_length R v), pinvWide_apply _ _ _ _ rfl]
    exact solveWide_turn u _ _ J v rfl rfl hJ

/-! ## Concrete cases -/

/-- y to x, z to y, x to z -/
def cycle : Iso ℝ := ⟨V3.zero, ⟨1 / 2, -1 / 2, -1 / 2, -1 / 2⟩⟩

theorem cycle_rigid : cycle.IsRigid := by
  simp only [Iso.IsRigid, cycle, Quat.IsUnit]; norm_num

theorem cycle_rotate (v : V3 ℝ) : cycle.rot.rotate v = ⟨v.y, v.z, v.x⟩ := by
  ext <;> simp [cycle, Quat.rotate, Quat.vec, V3.cross, V3.scale, V3.add] <;> ring

theorem swing_mimicWF (q : ℝ) : MimicWF (swing q) := by
  intro m c hc
  simp only [swing] at hc
  split at hc
  · cases hc
  · split at hc <;> cases hc

theorem isotropic_default : Constraints.default.Isotropic := ⟨rfl, rfl, rfl, rfl⟩

/-- exact linear algebra solves systems of full row rank -/
theorem exactLa_solves {r n : Nat} (n0 : 0 < n) {J : Mat ℝ} (lJ : J.length = n) (hJ : ∀ col ∈ J, col.length = r)
    (d : (toMat r n J * (toMat r n J)ᵀ).det ≠ 0) : exactLa.Solves r n J := by
  have hd : (J.headD []).length = r := by
    cases J with
    | nil => simp at lJ; omega
    | cons c J => exact hJ c (by simp)
  have pe : exactLa.pinv J = pinvWide r n J := by
    show pinvWide (J.headD []).length J.length J = _
    rw [hd, lJ]
  refine ⟨?_, ?_, ?_, ?_, ?_⟩
  · rintro rfl b x lb e
    have d' : (toMat r r J).det ≠ 0 := fun z => d (by rw [Matrix.det_mul, z, zero_mul])
    obtain ⟨y, e', a, b⟩ := exactLa_exact.lu r J lJ hJ d' b lb
    rw [e] at e'; cases e'
    exact ⟨a, b⟩
  · intro b lb
    obtain ⟨a, b, -⟩ := exactLa_exact.svd r n J lJ hJ d b lb
    exact ⟨a, fun _ _ _ => b⟩
  · rw [pe]
    intro col hc
    obtain ⟨j, rfl⟩ := List.mem_ofFn.1 hc
    simp
  · rw [pe]; exact List.length_ofFn
  · rw [pe]
    have : toMat n r (pinvWide r n J) = (toMat r n J)ᵀ * (toMat r n J * (toMat r n J)ᵀ)⁻¹ := by
      ext i j
      simp [toMat, pinvWide, List.getD_eq_getElem?_getD]
    rw [this, ← Matrix.mul_assoc, Matrix.mul_nonsing_inv _ (isUnit_iff_ne_zero.2 d), Matrix.one_mul]

/-- three sliders along x, y and z -/
def gantry : KHeap ℝ :=
  { get := fun n =>
      if n = 0 then { NodeImpl.fresh (Joint.new "x" (.linear ⟨1, 0, 0⟩)) with children := [1] }
      else if n = 1 then { NodeImpl.fresh (Joint.new "y" (.linear ⟨0, 1, 0⟩)) with
        parent := some 0, children := [2] }
      else if n = 2 then { NodeImpl.fresh (Joint.new "z" (.linear ⟨0, 0, 1⟩)) with parent := some 1 }
      else NodeImpl.fresh (Joint.new "c" .fixed)
    next := 3, dead := fun _ => false, held := fun _ => false }

def gantryArm : Chain := ⟨[0, 1, 2], [0, 1, 2], 3⟩

theorem gantry_nodes {n : NodeId} (hn : n ∈ gantryArm.nodes) :
    n = 0 ∧ (gantry.get n).joint = Joint.new "x" (.linear ⟨1, 0, 0⟩) ∨
    n = 1 ∧ (gantry.get n).joint = Joint.new "y" (.linear ⟨0, 1, 0⟩) ∨
    n = 2 ∧ (gantry.get n).joint = Joint.new "z" (.linear ⟨0, 0, 1⟩) := by
  have : n = 0 ∨ n = 1 ∨ n = 2 := by simpa [gantryArm] using hn
  rcases this with rfl | rfl | rfl
  · exact .inl ⟨rfl, rfl⟩
  · exact .inr (.inl ⟨rfl, rfl⟩)
  · exact .inr (.inr ⟨rfl, rfl⟩)

theorem gantry_sliding : Sliding gantry gantryArm where
  unlocked := fun _ => rfl
  wf := ⟨by simp [gantryArm, gantry, Movable, NodeImpl.fresh, Joint.new], rfl⟩
  root := ⟨0, [1, 2], rfl, by simp [liveParent, gantry, NodeImpl.fresh]⟩
  serial := by
    intro pre a b post e
    match pre, e with
    | [], e => cases e; simp [liveParent, gantry]
    | [x], e => cases e; simp [liveParent, gantry]
    | [x, y], e => simp [gantryArm] at e
    | x :: y :: z :: pre, e => simp [gantryArm] at e
  nodup := by simp [gantryArm]
  rigid := by
    intro n hn
    rcases gantry_nodes hn with ⟨-, e⟩ | ⟨-, e⟩ | ⟨-, e⟩ <;> rw [e] <;>
      exact ⟨by simp [Joint.new, Iso.IsRigid, Iso.one, Quat.one_isUnit], by simp [V3.IsUnit, Joint.new]⟩
  slides := by
    intro n hn a
    rcases gantry_nodes hn with ⟨-, e⟩ | ⟨-, e⟩ | ⟨-, e⟩ <;> rw [e] <;> simp [Joint.new]
  free := by
    intro n hn
    rcases gantry_nodes (n := n) hn with ⟨-, e⟩ | ⟨-, e⟩ | ⟨-, e⟩ <;> rw [e] <;> rfl

theorem gantry_arm : RootedArm gantry gantryArm :=
  ⟨gantry_sliding.unlocked, gantry_sliding.wf, gantry_sliding.root, gantry_sliding.serial,
    gantry_sliding.nodup, gantry_sliding.rigid⟩

theorem gantry_mimicWF : MimicWF gantry := by
  intro m c hc
  simp only [gantry] at hc
  split at hc
  · cases hc
  · split at hc
    · cases hc
    · split at hc <;> cases hc

theorem gantry_local {n : NodeId} (hn : n ∈ gantryArm.nodes) : (gantry.get n).joint.localTransform = Iso.one := by
  have : ∀ (name : String) (a : V3 ℝ), (Joint.new name (.linear a)).localTransform = Iso.one := by
    intro name a
    show Iso.one.mul ⟨V3.scale a 0, Quat.one⟩ = _
    rw [Iso.one_mul']
    simp [V3.scale, Iso.one, V3.zero]
  rcases gantry_nodes hn with ⟨-, e⟩ | ⟨-, e⟩ | ⟨-, e⟩ <;> rw [e, this]

/-- only the position is constrained -/
def onlyPosition : Constraints := ⟨true, true, true, false, false, false, []⟩

theorem gantry_jacobian : ∃ g, run (jacobian gantryArm) gantry =
    .ok [[1, 0, 0, 0, 0, 0], [0, 1, 0, 0, 0, 0], [0, 0, 1, 0, 0, 0]] g := by
  obtain ⟨jac, h', W, e, hW, rfl⟩ := jacobian_columns gantry gantry_arm.unlocked gantryArm gantry_arm.wf 0 [1, 2] rfl
    gantry_arm.serial (by simp [liveParent, gantry, NodeImpl.fresh])
  refine ⟨h', ?_⟩
  rw [e]
  have l0 : (gantry.get 0).joint.localTransform = Iso.one := gantry_local (by simp [gantryArm])
  have l1 : (gantry.get 1).joint.localTransform = Iso.one := gantry_local (by simp [gantryArm])
  have l2 : (gantry.get 2).joint.localTransform = Iso.one := gantry_local (by simp [gantryArm])
  have w0 : W 0 = Iso.one := by
    rw [hW [] 0 [1, 2] rfl]; simp [prodFrom, l0, Iso.one_mul']
  have w1 : W 1 = Iso.one := by
    rw [hW [0] 1 [2] rfl]; simp [prodFrom, l0, l1, Iso.one_mul']
  have w2 : W 2 = Iso.one := by
    rw [hW [0, 1] 2 [] rfl]; simp [prodFrom, l0, l1, l2, Iso.one_mul']
  have j0 : (gantry.get 0).joint = Joint.new "x" (.linear ⟨1, 0, 0⟩) := rfl
  have j1 : (gantry.get 1).joint = Joint.new "y" (.linear ⟨0, 1, 0⟩) := rfl
  have j2 : (gantry.get 2).joint = Joint.new "z" (.linear ⟨0, 0, 1⟩) := rfl
  simp [gantryArm, j0, j1, j2, w0, w1, w2, colLin, colAng, twist, Joint.new, Iso.one, Quat.rotate_one, V3.zero]

theorem gantry_posed (t : V3 ℝ) (n : Nat) : Posed (swingSolver n) gantryArm ⟨t, Quat.one⟩ onlyPosition gantry
    [[1, 0, 0, 0, 0, 0], [0, 1, 0, 0, 0, 0], [0, 0, 1, 0, 0, 0]] [] Iso.one where
  pose := by
    rw [run_endTransform _ _ gantry_arm.unlocked]
    have l0 : (gantry.get 0).joint.localTransform = Iso.one := gantry_local (by simp [gantryArm])
    have l1 : (gantry.get 1).joint.localTransform = Iso.one := gantry_local (by simp [gantryArm])
    have l2 : (gantry.get 2).joint.localTransform = Iso.one := gantry_local (by simp [gantryArm])
    simp [endPose, gantryArm, l0, l1, l2, Iso.one_mul']
  hasJac := gantry_jacobian
  names := .nil
  found := by simp [onlyPosition]
  sorted := .nil
  ignored := by simp [onlyPosition]
  able := by
    have hr : reducedJac (defineOperationalSpace onlyPosition) []
        [[1, 0, 0, 0, 0, 0], [0, 1, 0, 0, 0, 0], [0, 0, 1, 0, 0, 0]] = [[1, 0, 0], [0, 1, 0], [0, 0, 1]] := by
      simp [reducedJac, defineOperationalSpace, onlyPosition, selectFlags, dropIdx, List.zipIdx]
    have one : toMat 3 3 [[1, 0, 0], [0, 1, 0], [0, 0, 1]] = 1 := by
      ext i j; fin_cases i <;> fin_cases j <;> simp [toMat]
    rw [show defineOperationalSpace onlyPosition = [true, true, true, false, false, false] from rfl] at hr
    refine ⟨?_, ?_, ?_⟩
    · show exactLa.Solves 3 3 _
      rw [show defineOperationalSpace onlyPosition = [true, true, true, false, false, false] from rfl, hr]
      exact exactLa_solves (by decide) rfl (by simp) (by rw [one]; simp)
    · intro _ b lb
      rw [show defineOperationalSpace onlyPosition = [true, true, true, false, false, false] from rfl, hr]
      obtain ⟨x, e, -⟩ := exactLa_exact.lu 3 [[1, 0, 0], [0, 1, 0], [0, 0, 1]] rfl (by simp)
        (by rw [one]; simp) b lb
      exact ⟨x, e⟩
    · intro f e; cases e
  constrained := by decide
  enough := .inl ⟨rfl, by decide⟩
  sol := ⟨[t.x, t.y, t.z], rfl, by simp, fun i hi => by
      match i, hi with
      | 0, _ => simp [rowSum, calcPoseDiff, V3.sub, Iso.one, V3.zero]
      | 1, _ => simp [rowSum, calcPoseDiff, V3.sub, Iso.one, V3.zero]
      | 2, _ => simp [rowSum, calcPoseDiff, V3.sub, Iso.one, V3.zero]
      | 3, hi => cases hi
      | 4, hi => cases hi
      | 5, hi => cases hi
      | n + 6, hi => simp [defineOperationalSpace, onlyPosition] at hi⟩

/-- the gantry, wherever it is put up and however it is turned, finds a target at distance 1 in front of it
with ten tries -/
theorem C85_gantry (X : Iso ℝ) (hX : X.IsRigid) (t : V3 ℝ) (ht : t.norm = 1) :
    ∃ g, run (do gantryArm.setOrigin (X.mul (← gantryArm.origin))) gantry = .ok () g ∧
      ∃ g', run (solveWithConstraints (swingSolver 10) gantryArm (X.mul ⟨t, Quat.one⟩) onlyPosition) g =
        .ok (.ok ()) g' := by
  have i : onlyPosition.Isotropic := ⟨rfl, rfl, rfl, rfl⟩
  obtain ⟨g, e, -⟩ := C85_frame gantry (swingSolver 10) gantryArm ⟨t, Quat.one⟩ X onlyPosition gantry_arm
    gantry_mimicWF hX i exactLa_turn
  refine ⟨g, e, ?_⟩
  rw [← C85_found_iff gantry (swingSolver 10) gantryArm ⟨t, Quat.one⟩ X onlyPosition gantry_arm
    gantry_mimicWF hX i exactLa_turn g e]
  refine (C70_iff gantry_sliding (gantry_posed t 10) (by norm_num [swingSolver])).2 ⟨7, by omega, ?_, ?_⟩
  · show 7 ≤ 10; omega
  · have : (posError onlyPosition ⟨t, Quat.one⟩ Iso.one).norm = 1 := by
      rw [← ht]
      simp [posError, masked, onlyPosition, V3.sub, Iso.one, V3.zero, V3.norm]
    rw [this]
    norm_num [swingSolver, abs_of_pos]

/-- **C85, constraints that single out an axis.**  The same arm, the same solver and the same task seen from
two frames: with only x constrained the solver finds the target in the one frame and gives up with
`InverseMatrixError` in the other. -/
theorem C85_needs_isotropy : RootedArm (swing 0) swingArm ∧ MimicWF (swing 0) ∧ cycle.IsRigid ∧
    (swingSolver 1).la.TurnInvariant ∧
    ∃ h' g g', run (do swingArm.setOrigin (cycle.mul (← swingArm.origin))) (swing 0) = .ok () g ∧
      run (solveWithConstraints (swingSolver 1) swingArm (atX (1 / 2)) (onlyX [])) (swing 0) =
        .ok (.error .inverseMatrix) h' ∧
      run (solveWithConstraints (swingSolver 1) swingArm (cycle.mul (atX (1 / 2))) (onlyX [])) g =
        .ok (.ok ()) g' := by
  refine ⟨swing_arm 0, swing_mimicWF 0, cycle_rigid, exactLa_turn, ?_⟩
  obtain ⟨-, -, h', e, -⟩ := C74_singular_start 1 (by omega)
  obtain ⟨g, eg, t⟩ := move_origin (swing_arm 0) (show swingArm.nodes = 0 :: [1] from rfl) cycle
  have lg := t.rootedArm cycle_rigid (swing_arm 0)
  have pg : endPose g swingArm.nodes = ⟨⟨0, 0, 1⟩, cycle.rot⟩ := by
    rw [t.endPose cycle_rigid (swing_arm 0) rfl, swing_pose]
    simp only [Iso.mul, cycle_rotate, atX]
    rw [Quat.mul_one']
    ext <;> simp [cycle, V3.add, V3.zero]
  have tg : cycle.mul (atX (1 / 2)) = ⟨⟨0, 0, 1 / 2⟩, cycle.rot⟩ := by
    simp only [Iso.mul, cycle_rotate, atX]
    rw [Quat.mul_one']
    ext <;> simp [cycle, V3.add, V3.zero]
  have jg : ∃ g1, run (jacobian swingArm) g = .ok [[1, 0, 0, 0, 1, 0]] g1 := by
    obtain ⟨cols, h1, g1, -, e1, e2, -, -⟩ := t.jacobian cycle_rigid (swing_arm 0) rfl
    obtain ⟨h2, e3⟩ := swing_jac
    rw [e3] at e1
    injection e1 with e1 _
    refine ⟨g1, ?_⟩
    rw [e2]
    obtain ⟨p, rfl⟩ : ∃ p, cols = [p] := List.length_eq_one_iff.1 (by simpa using (congrArg List.length e1).symm)
    simp only [List.map_cons, List.map_nil, List.cons.injEq, and_true, twist] at e1
    obtain ⟨a, b, c, d, e, f⟩ := e1
    simp [cycle_rotate, twist, ← a, ← b, ← c, ← d, ← e, ← f]
  obtain ⟨g1, ej⟩ := jg
  obtain ⟨ow, -⟩ := jacobian_ok swingArm g g1 lg.unlocked _ ej
  have p0 : ∀ n, (g.get n).joint.position = ((swing 0).get n).joint.position := fun n => by
    obtain ⟨x, e⟩ := t.node n
    rw [e]
  have err : calcPoseDiffWithConstraints (cycle.mul (atX (1 / 2))) (endPose g swingArm.nodes)
      (defineOperationalSpace (onlyX [])) = [0] := by
    rw [pg, tg]
    simp [calcPoseDiffWithConstraints, calcPoseDiff, defineOperationalSpace, onlyX, selectFlags, V3.sub]
  have np : nextPositions (swingSolver 1) (defineOperationalSpace (onlyX [])) [] swingArm.dof
      [[1, 0, 0, 0, 1, 0]] [0] [0] = .ok (.ok [0]) := by
    simp only [nextPositions, onlyX_count]
    rw [removeRows_onlyX [] _ (by simp)]
    obtain ⟨x, ex, lx, vx⟩ := exactLa_exact.lu 1 [[1]] rfl (by simp) (by simp [toMat]) [0] rfl
    obtain ⟨q, rfl⟩ := List.length_eq_one_iff.1 lx
    have : q = 0 := by
      have := vx 0 (by omega)
      simpa [rowSum] using this
    subst this
    simp [Bind.bind, Except.bind, removeIndices, swingArm, swingSolver, ex, addPositionsWithMultiplier]
  have pl : posList g swingArm.movableNodes = [0] := by
    simp [posList, swingArm, p0, swing, NodeImpl.fresh]
  have mv : Moved swingArm.nodes g (clampAll (swingArm.movableNodes.zip [0]) g1) :=
    ow.moved.trans (moved_clamp_chain (ow.moved.sameBut.chainWf lg.wf) [0])
  have stay : endPose (clampAll (swingArm.movableNodes.zip [0]) g1) swingArm.nodes =
      endPose g swingArm.nodes := by
    refine endPose_congr mv.sameBut _ fun n hn => ?_
    have : n = 0 ∨ n = 1 := by simpa [swingArm] using hn
    rcases this with rfl | rfl
    · show ((g1.modify 0 fun s => { s with joint := s.joint.setJointPositionClamped 0 }).get 0).joint.position = _
      rw [Heap.get_modify_self, p0]
      have sw := ow.same 0
      obtain ⟨wt, eg⟩ := t.node 0
      unfold SameButWorld at sw
      rw [sw, eg]
      simp [swing, NodeImpl.fresh, Joint.new, Joint.setJointPositionClamped, Joint.isMovable,
        Joint.setJointPositionUnchecked]
    · show ((g1.modify 0 fun s => { s with joint := s.joint.setJointPositionClamped 0 }).get 1).joint.position = _
      rw [Heap.get_modify_of_ne _ _ (by decide), (ow.same 1).position]
  have e1 : run (solveOneLoop (swingSolver 1) swingArm (cycle.mul (atX (1 / 2))) (defineOperationalSpace (onlyX []))
      (sortedIndices [])) g = .ok (.ok [0]) (clampAll (swingArm.movableNodes.zip [0]) g1) := by
    have u1 := ow.moved.unlocked lg.unlocked
    simp only [solveOneLoop, run_bind, run_jointPositions _ lg.unlocked _ lg.wf, Res.bind_ok,
      run_endTransform _ _ lg.unlocked, ej]
    rw [show sortedIndices [] = ([] : List Nat) by simp [sortedIndices], err]
    simp only [posList] at pl
    rw [pl, np]
    show Res.bind (Res.ok (Except.ok [0]) g1) _ = _
    simp only [run_bind, run_setJointPositionsClamped _ _ _ u1, Res.bind_ok,
      run_endTransform _ _ (mv.unlocked lg.unlocked), stay, err, run_pure]
  exact ⟨h', g, _, eg, e, run_solve_reached lg.unlocked lg.wf rfl (by decide) (by decide) (is := []) rfl e1 (by
    rw [show targetDiffToLenRotDiff [(0 : ℝ)] (defineOperationalSpace (onlyX [])) = (⟨0, 0, 0⟩, ⟨0, 0, 0⟩) from rfl]
    norm_num [reached, V3.norm, swingSolver, Scalar.sqrt, Scalar.lt])⟩

end

end K
