import Verif.Spec.Singular
import Verif.Props.IkLocalEx
import Verif.Props.TriesEx
import Mathlib.LinearAlgebra.Matrix.ToLinearEquiv
/-!
# C97: inverse kinematics at singular poses
-/

namespace K
open Prog Matrix

noncomputable section

theorem fixes_iff (c : Constraints) (i : Nat) :
    c.fixes i = true ↔ (defineOperationalSpace c)[i]? = some true := by
  match i with
  | 0 | 1 | 2 | 3 | 4 | 5 => simp [Constraints.fixes, defineOperationalSpace]
  | i + 6 => simp [Constraints.fixes, defineOperationalSpace]

theorem exactLa_pivots : exactLa.Pivots := by
  intro r J lJ cJ b lb
  subst lb
  simp only [exactLa]
  split <;> simp [*]

section reduced

variable {c : Constraints} {ign : List Nat} {jac : Mat ℝ}

theorem removed (srt : ign.Pairwise (· < ·)) (lt : ∀ j ∈ ign, j < jac.length) (hj : ∀ col ∈ jac, col.length = 6) :
    removeRows (defineOperationalSpace c) 0 0 jac = .ok (jac.map (selectFlags (defineOperationalSpace c))) ∧
    removeIndices ign 0 (jac.map (selectFlags (defineOperationalSpace c))) =
      .ok (reducedJac (defineOperationalSpace c) ign jac) ∧
    (reducedJac (defineOperationalSpace c) ign jac).length + ign.length = jac.length ∧
    ∀ col ∈ reducedJac (defineOperationalSpace c) ign jac, col.length = numConstrained c := by
  have ri : removeIndices ign 0 (jac.map (selectFlags (defineOperationalSpace c))) =
      .ok (reducedJac (defineOperationalSpace c) ign jac) := by
    rw [removeIndices_ok ign 0 _ srt (by simp) (by simpa using lt)]
    simp [reducedJac, dropIdx_eq]
  refine ⟨?_, ri, by simpa using removeIndices_length _ _ _ _ ri, fun col hc => ?_⟩
  · rw [removeRows_eq _ 0 0 jac (Nat.le_refl _) (by intro col hc; rw [hj col hc]; rfl)]
    simp
  · obtain ⟨x, hx, rfl⟩ := List.mem_map.1 (dropFrom_subset 0 ign _ col hc)
    rw [← (C30_count (T := ℝ) c).1]
    exact selectFlags_length _ x (by rw [hj x hx]; rfl)

/-- singular for as many free joints as constraints: the matrix of the solver is singular -/
theorem singular_det (srt : ign.Pairwise (· < ·)) (lt : ∀ j ∈ ign, j < jac.length)
    (hj : ∀ col ∈ jac, col.length = 6) (sq : numConstrained c + ign.length = jac.length) :
    Singular c ign jac ↔
      (toMat (numConstrained c) (numConstrained c) (reducedJac (defineOperationalSpace c) ign jac)).det = 0 := by
  obtain ⟨-, -, len, -⟩ := removed (c := c) srt lt hj
  have lJ : (reducedJac (defineOperationalSpace c) ign jac).length = numConstrained c := by omega
  rw [← Matrix.exists_mulVec_eq_zero_iff]
  constructor
  · rintro ⟨v, hv⟩
    have ld : (dropIdx ign v).length = numConstrained c := by
      have := removeIndices_length ign 0 v _ (removeIndices_ok ign 0 v srt (by simp)
        (by simpa [hv.rates] using lt))
      simp only [Nat.sub_zero, List.map_id'] at this
      rw [← dropIdx_eq, hv.rates] at this
      omega
    refine ⟨toVec _ (dropIdx ign v), fun z => ?_, ?_⟩
    · obtain ⟨x, hx, nx⟩ := hv.moves
      obtain ⟨i, hi, rfl⟩ := List.getElem_of_mem hx
      have ni : i ∉ ign := fun hm => nx (by
        have := hv.ignored i hm
        rw [List.getElem?_eq_getElem hi] at this
        exact Option.some.inj this)
      have mem : v[i] ∈ dropIdx ign v := by
        refine List.mem_map.2 ⟨(v[i], i), ?_, rfl⟩
        rw [List.mem_filter]
        exact ⟨List.mk_mem_zipIdx_iff_getElem?.2 (List.getElem?_eq_getElem hi), by simpa using ni⟩
      obtain ⟨j, hjl, ej⟩ := List.getElem_of_mem mem
      have := congrFun z ⟨j, by omega⟩
      simp only [toVec, List.getD_eq_getElem?_getD, List.getElem?_eq_getElem hjl, Option.getD_some,
        Pi.zero_apply] at this
      exact nx (ej ▸ this)
    · funext k
      rw [← rowSum_mulVec _ _ _ _ lJ ld]
      obtain ⟨i, hi, ek⟩ := countTrue_take_surj (defineOperationalSpace c) k.1
        (by rw [(C30_count (T := ℝ) c).1]; exact k.2)
      rw [← ek, ← rowSum_reduced _ _ _ _ hv.ignored i hi]
      exact hv.rest i ((fixes_iff c i).2 hi)
  · rintro ⟨x, nx, hx⟩
    obtain ⟨zs, -, d, l, z, -⟩ := insertZeros_ok ign (List.ofFn x) srt (fun j hm => by
      have := lt j hm
      simp only [List.length_ofFn]; omega)
    refine ⟨zs, ⟨by simpa [l] using sq, z, ?_, fun i hi => ?_⟩⟩
    · obtain ⟨j, hj⟩ := Function.ne_iff.1 nx
      refine ⟨x j, ?_, hj⟩
      have : x j ∈ dropIdx ign zs := by rw [d]; exact List.mem_ofFn.2 ⟨j, rfl⟩
      exact dropFrom_subset 0 ign _ _ this
    · have hi := (fixes_iff c i).1 hi
      rw [rowSum_reduced _ ign jac zs z i hi, d]
      have lt := countTrue_take_lt _ i hi
      rw [(C30_count (T := ℝ) c).1] at lt
      rw [rowSum_mulVec (numConstrained c) (numConstrained c) _ _ lJ (by simp) ⟨_, lt⟩, toVec_ofFn, hx]
      rfl

/-- the step of the solver with as many free joints as constraints -/
theorem nextPositions_even {s : IkSolver ℝ} (lu : s.la.Pivots) (srt : ign.Pairwise (· < ·))
    (lt : ∀ j ∈ ign, j < jac.length) (hj : ∀ col ∈ jac, col.length = 6)
    (sq : numConstrained c + ign.length = jac.length) {err orig : List ℝ} (le : err.length = numConstrained c) :
    (Singular c ign jac → nextPositions s (defineOperationalSpace c) ign jac.length jac err orig =
      .ok (.error .inverseMatrix)) ∧
    (¬ Singular c ign jac → ∃ ps, nextPositions s (defineOperationalSpace c) ign jac.length jac err orig =
      .ok (.ok ps)) := by
  obtain ⟨rr, ri, len, hJ⟩ := removed (c := c) srt lt hj
  have lJ : (reducedJac (defineOperationalSpace c) ign jac).length = numConstrained c := by omega
  have cnt := (C30_count (T := ℝ) c).1
  have np : nextPositions s (defineOperationalSpace c) ign jac.length jac err orig =
      match s.la.lu (reducedJac (defineOperationalSpace c) ign jac) err with
      | some x => .ok (.ok (addPositionsWithMultiplier s.jacobianMultiplier orig x))
      | none => .ok (.error .inverseMatrix) := by
    simp only [nextPositions, rr, ri, Bind.bind, Except.bind, cnt]
    rw [if_neg (by omega)]
    cases s.la.lu (reducedJac (defineOperationalSpace c) ign jac) err <;> rfl
  have pv := lu _ _ lJ hJ err le
  rw [np, singular_det srt lt hj sq]
  constructor
  · intro d
    cases x : s.la.lu (reducedJac (defineOperationalSpace c) ign jac) err with
    | none => rfl
    | some y => exact absurd d (pv.1 ⟨y, x⟩)
  · intro d
    obtain ⟨y, x⟩ := pv.2 d
    exact ⟨_, by rw [x]⟩

end reduced

/-- the names of the ignored joints stand for the indices `ign`, and as many joints remain as coordinates are
constrained -/
structure NoRedundancy (h : KHeap ℝ) (arm : Chain) (c : Constraints) (ign : List Nat) : Prop where
  names : c.ignoredJointNames.Nodup
  found : ∀ a ∈ c.ignoredJointNames, ∃ n ∈ arm.movableNodes, (h.get n).joint.name = a
  sorted : ign.Pairwise (· < ·)
  ignored : ∀ i, i ∈ ign ↔ ∃ a ∈ c.ignoredJointNames,
    arm.movableNodes.findIdx? (fun n => (h.get n).joint.name == a) = some i
  square : numConstrained c + c.ignoredJointNames.length = arm.dof

section solve

variable {s : IkSolver ℝ} {arm : Chain} {target : Iso ℝ} {c : Constraints} {ign : List Nat}

theorem jac_shape {h g : KHeap ℝ} {jac : Mat ℝ} (u : h.Unlocked) (w : arm.Wf h)
    (e : run (jacobian arm) h = .ok jac g) : jac.length = arm.dof ∧ ∀ col ∈ jac, col.length = 6 := by
  obtain ⟨-, f⟩ := jacobian_ok arm h g u jac e
  refine ⟨by rw [← f.length_eq, w.dof], fun col hc => ?_⟩
  obtain ⟨i, hi, rfl⟩ := List.getElem_of_mem hc
  exact isColumn_length (f.get (by rw [f.length_eq]; exact hi) hi)

/-- one step of the solver fails with `InverseMatrixError` exactly at the singular poses -/
theorem step_singular {h g : KHeap ℝ} {jac : Mat ℝ} (u : h.Unlocked) (w : arm.Wf h) (lu : s.la.Pivots)
    (q : NoRedundancy h arm c ign) (e : run (jacobian arm) h = .ok jac g) :
    (Singular c ign jac → run (solveOneLoop s arm target (defineOperationalSpace c) ign) h =
      .ok (.error .inverseMatrix) g) ∧
    (¬ Singular c ign jac → ∃ diff g', run (solveOneLoop s arm target (defineOperationalSpace c) ign) h =
      .ok (.ok diff) g') := by
  obtain ⟨lj, hj⟩ := jac_shape u w e
  obtain ⟨is, -, -, il, lt⟩ := ignored_indices w q.names q.found q.sorted q.ignored
  have sq := q.square
  rw [← il, ← lj] at sq
  obtain ⟨ow, -⟩ := jacobian_ok arm h g u jac e
  have np := nextPositions_even (s := s) (c := c) lu q.sorted (by rwa [lj]) hj sq
    (err := calcPoseDiffWithConstraints target (endPose h arm.nodes) (defineOperationalSpace c))
    (orig := posList h arm.movableNodes) ((C30_count (T := ℝ) c).2 _ _)
  rw [lj] at np
  unfold posList at np
  constructor
  · intro d
    simp only [solveOneLoop, run_bind, run_jointPositions _ u _ w, Res.bind_ok, run_endTransform _ _ u, e, np.1 d]
    rfl
  · intro d
    obtain ⟨ps, x⟩ := np.2 d
    have u1 := ow.unlocked u
    have m := moved_clamp_chain (h := h) (h' := g) w ps
    exact ⟨_, clampAll (arm.movableNodes.zip ps) g, by
      simp only [solveOneLoop, run_bind, run_jointPositions _ u _ w, Res.bind_ok, run_endTransform _ _ u, e, x,
        run_ofExcept_ok, run_pure, run_setJointPositionsClamped _ _ _ u1,
        run_endTransform _ _ (m.unlocked u1)]
      rfl⟩

/-- **C97** (singular poses).  With as many free joints as constrained coordinates, a solve that starts at a singular
pose answers `InverseMatrixError` and leaves the joints where they are, whatever the target (even the present pose),
the tolerances, the number of tries and the nullspace function.  (Positions restorable as in C25.) -/
theorem C97_singular (h g : KHeap ℝ) (u : h.Unlocked) (ol : OneLevel h) (w : arm.Wf h) (nd : arm.nodes.Nodup)
    (re : Restorable h arm) (lu : s.la.Pivots) (tries : 0 < s.numMaxTry) (q : NoRedundancy h arm c ign)
    (jac : Mat ℝ) (e : run (jacobian arm) h = .ok jac g) (sing : Singular c ign jac) :
    ∃ h', run (solveWithConstraints s arm target c) h = .ok (.error .inverseMatrix) h' ∧
      ∀ k, posOf h' k = posOf h k := by
  obtain ⟨ow, -⟩ := jacobian_ok arm h g u jac e
  obtain ⟨h2, r2, -, pos⟩ := restore (arm := arm) u ol w nd re ow.moved.disturbed
  obtain ⟨is, ni, ei, il, lt⟩ := ignored_indices w q.names q.found q.sorted q.ignored
  have sq := q.square
  refine ⟨h2, ?_, pos⟩
  rw [run_to_loop u w ni (by omega) (by rw [(C30_count (T := ℝ) c).1]; omega), ei]
  have e1 := (step_singular (s := s) (target := target) u w lu q e).1 sing
  obtain ⟨k, hk⟩ := Nat.exists_eq_add_of_lt tries
  rw [hk]
  show Res.bind (run (tryLoop _ _ _ _ _ _ (0 + k + 1) none) _) _ = _
  simp only [tryLoop, run_bind, e1, Res.bind_ok, run_pure, r2]

/-- **C97** (nothing else).  An `InverseMatrixError` comes from a singular pose: one of the poses the solver has
visited, after fewer steps than there are tries, is singular. -/
theorem C97_cause (h h' : KHeap ℝ) (u : h.Unlocked) (ol : OneLevel h) (w : arm.Wf h) (nd : arm.nodes.Nodup)
    (re : Restorable h arm) (lu : s.la.Pivots) (q : NoRedundancy h arm c ign)
    (e : run (solveWithConstraints s arm target c) h = .ok (.error .inverseMatrix) h') :
    ∃ k h1 last jac g, k < s.numMaxTry ∧
      Unreached s arm target (defineOperationalSpace c) ign k h none h1 last ∧
      run (jacobian arm) h1 = .ok jac g ∧ Singular c ign jac := by
  obtain ⟨is, ni, ei, il, lt⟩ := ignored_indices w q.names q.found q.sorted q.ignored
  obtain ⟨-, r1, h1, x, b⟩ := solve_ok c h h' u w _ e
  rcases x with ⟨-, x, -⟩ | ⟨e1, rr, rfl, x, y⟩
  · cases x
  rcases b with ⟨lt, rfl, z⟩ | ⟨-, ⟨a, na, rfl, z⟩ | ⟨is', ni', t⟩⟩
  · rw [(C30_count (T := ℝ) c).1] at lt
    have := q.square
    omega
  · rw [ni] at na; cases na
  rw [ni] at ni'; cases ni'
  have fin : ∀ {k h1 h2 last er}, k < s.numMaxTry →
      Unreached s arm target (defineOperationalSpace c) ign k h none h1 last →
      run (solveOneLoop s arm target (defineOperationalSpace c) ign) h1 = .ok (.error er) h2 →
      ∃ k h1 last jac g, k < s.numMaxTry ∧
        Unreached s arm target (defineOperationalSpace c) ign k h none h1 last ∧
        run (jacobian arm) h1 = .ok jac g ∧ Singular c ign jac := by
    intro k h1 h2 last er lt i st
    have m := i.moved u w
    have u1 := m.unlocked u
    have w1 := m.sameBut.chainWf w
    have q1 : NoRedundancy h1 arm c ign := by
      refine ⟨q.names, fun a ha => ?_, q.sorted, fun i => ?_, q.square⟩
      · obtain ⟨n, hn, en⟩ := q.found a ha
        exact ⟨n, hn, by rw [m.sameBut.name]; exact en⟩
      · simp only [m.sameBut.name]; exact q.ignored i
    have st' := st
    simp only [solveOneLoop, run_bind, run_jointPositions _ u1 _ w1, Res.bind_ok, run_endTransform _ _ u1] at st'
    obtain ⟨jac, g, ej, -⟩ := Res.bind_eq_ok st'
    refine ⟨k, h1, last, jac, g, lt, i, ej, ?_⟩
    by_contra ns
    obtain ⟨diff, g', st2⟩ := (step_singular (s := s) (target := target) u1 w1 lu q1 ej).2 ns
    rw [st] at st2; cases st2
  have t := ei ▸ t
  obtain ⟨k, h2, last, i, cases3⟩ := tryLoop_ok _ _ _ h h1 u w _ t
  rcases cases3 with ⟨rfl, rr', x1, z⟩ | ⟨lt, e', x1, z⟩ | ⟨-, diff, h3, x1, -, rfl, z⟩
  · exfalso
    have m2 := i.moved u w
    obtain ⟨h4, x4, sb, pos⟩ := restore u ol w nd re m2.disturbed
    rw [x1] at x4; cases x4
    rcases z with ⟨_, z, -⟩ | ⟨-, d, -, z⟩
    · cases z
    cases z
    obtain ⟨h5, x5, -⟩ := restore u ol w nd re ⟨sb, fun k _ => pos k⟩
    rw [x] at x5; cases x5
    rcases y with ⟨_, y, -⟩ | ⟨-, y⟩
    · cases y
    · cases y
  · exact fin lt i x1
  · cases z

/-- **C97** (one try).  With a single try the answer is `InverseMatrixError` exactly at the singular poses. -/
theorem C97_one_try (h g : KHeap ℝ) (u : h.Unlocked) (ol : OneLevel h) (w : arm.Wf h) (nd : arm.nodes.Nodup)
    (re : Restorable h arm) (lu : s.la.Pivots) (one : s.numMaxTry = 1) (q : NoRedundancy h arm c ign)
    (jac : Mat ℝ) (e : run (jacobian arm) h = .ok jac g) :
    (∃ h', run (solveWithConstraints s arm target c) h = .ok (.error .inverseMatrix) h') ↔ Singular c ign jac := by
  constructor
  · rintro ⟨h', x⟩
    obtain ⟨k, h1, last, jac', g', lt, i, ej, sing⟩ := C97_cause h h' u ol w nd re lu q x
    have : k = 0 := by omega
    subst this
    cases i
    rw [e] at ej; cases ej
    exact sing
  · intro sing
    obtain ⟨h', x, -⟩ := C97_singular (target := target) h g u ol w nd re lu (by omega) q jac e sing
    exact ⟨h', x⟩

/-- **C97** (redundancy).  With more free joints than constrained coordinates the answer is never
`InverseMatrixError`, whatever the linear algebra does. -/
theorem C97_redundant (h h' : KHeap ℝ) (u : h.Unlocked)
    (more : numConstrained c < arm.dof - c.ignoredJointNames.length) :
    run (solveWithConstraints s arm target c) h ≠ .ok (.error .inverseMatrix) h' := by
  intro e
  have sq := (C69_sequential h h' u (.solve s arm target c) _ e).2.1 _ rfl
  cases sq with
  | inverse _ square _ => rw [count_eq] at square; omega
  | restore n hn x e he =>
    rcases he with ⟨j, -, ⟨-, e⟩ | ⟨-, r, -, -, e⟩⟩ | ⟨c, j, m, -, ⟨-, e⟩ | ⟨-, r, -, -, e⟩⟩ <;> cases e

end solve

/-! ## which poses are singular -/

section poses

variable {h g : KHeap ℝ} {arm : Chain} {c : Constraints} {ign : List Nat} {jac : Mat ℝ}

/-- the column of joint `k` -/
theorem column_of (u : h.Unlocked) (e : run (jacobian arm) h = .ok jac g) {i : Nat} {k : NodeId}
    (hk : arm.movableNodes[i]? = some k) : ∃ col, jac[i]? = some col ∧
      (∀ p a, TurnsAbout g k p a → col = twist (a.cross ((endPose h arm.nodes).trans.sub p)) a) ∧
      ∀ a, SlidesAlong g k a → col = twist a V3.zero := by
  obtain ⟨-, f⟩ := jacobian_ok arm h g u jac e
  obtain ⟨hi, rfl⟩ := List.getElem?_eq_some_iff.1 hk
  have hi' : i < jac.length := by rw [← f.length_eq]; exact hi
  obtain ⟨ti, ct, jc⟩ := f.get hi hi'
  refine ⟨_, List.getElem?_eq_getElem hi', ?_, ?_⟩
  · rintro p a ⟨axis, X, jt, wt, rfl, rfl⟩
    have : ti = X := by
      have := ct.symm.trans wt
      exact Option.some.inj this
    subst this
    simp only [List.get_eq_getElem] at jt jc
    rw [jacobianColumn, jt] at jc
    exact (Except.ok.inj jc).symm
  · rintro a ⟨axis, X, jt, wt, rfl⟩
    have : ti = X := by
      have := ct.symm.trans wt
      exact Option.some.inj this
    subst this
    simp only [List.get_eq_getElem] at jt jc
    rw [jacobianColumn, jt] at jc
    exact (Except.ok.inj jc).symm

theorem rowSum_set_zero (jac : Mat ℝ) (r i : Nat) (x : ℝ) (col : List ℝ) (v : List ℝ) (hi : jac[i]? = some col)
    (z : v[i]? = some 0) : rowSum jac r (v.set i x) = rowSum jac r v + col.getD r 0 * x := by
  induction jac generalizing i v with
  | nil => simp at hi
  | cons a jac ih =>
    cases v with
    | nil => simp at z
    | cons y v =>
      cases i with
      | zero =>
        simp at hi z
        subst hi; subst z
        simp [rowSum]; ring
      | succ i =>
        have := ih i v (by simpa using hi) (by simpa using z)
        simp only [rowSum, List.set_cons_succ, List.zip_cons_cons, List.map_cons, List.sum_cons] at this ⊢
        rw [this]; ring

theorem rowSum_replicate (jac : Mat ℝ) (r n : Nat) : rowSum jac r (List.replicate n 0) = 0 := by
  induction jac generalizing n with
  | nil => rfl
  | cons a jac ih =>
    cases n with
    | zero => rfl
    | succ n =>
      have := ih n
      simp only [rowSum, List.replicate_succ, List.zip_cons_cons, List.map_cons, List.sum_cons] at this ⊢
      rw [this]; simp

theorem sum_toVec (r : Nat) (a b : List ℝ) (la : a.length = r) (lb : b.length = r) :
    ∑ i : Fin r, toVec r a i * toVec r b i = (List.zipWith (· * ·) a b).sum := by
  have : List.zipWith (· * ·) a b = List.ofFn fun i : Fin r => toVec r a i * toVec r b i := by
    refine List.ext_getElem (by simp [la, lb]) fun k h1 h2 => ?_
    simp only [List.length_zipWith, la, lb, Nat.min_self] at h1
    simp [toVec, List.getD_eq_getElem?_getD, List.getElem?_eq_getElem (la.symm ▸ h1),
      List.getElem?_eq_getElem (lb.symm ▸ h1)]
  rw [this, List.sum_ofFn]

theorem select_dot {c : Constraints} (d : V3 ℝ) (cx : c.positionX = false → d.x = 0)
    (cy : c.positionY = false → d.y = 0) (cz : c.positionZ = false → d.z = 0) (x y z p r q : ℝ) :
    (List.zipWith (· * ·) (selectFlags (defineOperationalSpace c) [d.x, d.y, d.z, 0, 0, 0])
      (selectFlags (defineOperationalSpace c) [x, y, z, p, r, q])).sum = d.x * x + d.y * y + d.z * z := by
  obtain ⟨px, py, pz, rx, ry, rz, ig⟩ := c
  have z : ∀ (fs : List Bool) (ys : List ℝ), (List.zipWith (· * ·) (selectFlags fs [(0 : ℝ), 0, 0])
      (selectFlags fs ys)).sum = 0 := by
    intro fs ys
    match fs, ys with
    | [], _ | [_], [] | [_, _], [] | _ :: _ :: _ :: _, [] => simp [selectFlags]
    | [a], y :: ys => cases a <;> cases ys <;> simp [selectFlags]
    | [a, b], [y] => cases a <;> cases b <;> simp [selectFlags]
    | [a, b], y :: y' :: ys => cases a <;> cases b <;> cases ys <;> simp [selectFlags]
    | a :: b :: c :: fs, [y] => cases a <;> cases b <;> cases c <;> simp [selectFlags]
    | a :: b :: c :: fs, [y, y'] => cases a <;> cases b <;> cases c <;> simp [selectFlags]
    | a :: b :: c :: fs, y :: y' :: y'' :: ys =>
      cases a <;> cases b <;> cases c <;> cases fs <;> simp [selectFlags]
  have z := z [rx, ry, rz] [p, r, q]
  cases px <;> cases py <;> cases pz <;> simp at cx cy cz <;>
    simp [defineOperationalSpace, selectFlags, z, *] <;> ring

/-- two proportional columns of joints that are not ignored -/
theorem singular_of_columns {i j : Nat} (ne : i ≠ j) {ci cj : List ℝ} (hi : jac[i]? = some ci)
    (hj : jac[j]? = some cj) (fi : i ∉ ign) (fj : j ∉ ign) (lt : ∀ k ∈ ign, k < jac.length) (x : ℝ)
    (prop : ∀ r, ci.getD r 0 = x * cj.getD r 0) : Singular c ign jac := by
  have li : i < jac.length := (List.getElem?_eq_some_iff.1 hi).1
  have lj : j < jac.length := (List.getElem?_eq_some_iff.1 hj).1
  refine ⟨((List.replicate jac.length 0).set i 1).set j (-x), by simp, fun k hk => ?_, ?_, fun r _ => ?_⟩
  · have l := lt k hk
    rw [List.getElem?_set_ne (fun e : j = k => fj (e ▸ hk)), List.getElem?_set_ne (fun e : i = k => fi (e ▸ hk))]
    simp [l]
  · refine ⟨1, ?_, one_ne_zero⟩
    refine List.mem_of_getElem? (i := i) ?_
    rw [List.getElem?_set_ne ne.symm]
    simp [li]
  · rw [rowSum_set_zero _ _ _ _ _ _ hj (by rw [List.getElem?_set_ne ne]; simp [lj]),
      rowSum_set_zero _ _ _ _ _ _ hi (by simp [li]), rowSum_replicate, prop]
    ring

/-- **C97** (two joints on one axis).  If two joints that are not ignored turn about the same line, in the same or
opposite directions, the pose is singular, for all constraints. -/
theorem C97_coaxial (u : h.Unlocked) (w : arm.Wf h) (e : run (jacobian arm) h = .ok jac g)
    (lt : ∀ k ∈ ign, k < arm.dof) {i j : Nat} (ne : i ≠ j) {k l : NodeId} (hk : arm.movableNodes[i]? = some k)
    (hl : arm.movableNodes[j]? = some l) (fi : i ∉ ign) (fj : j ∉ ign) {p a p' a' : V3 ℝ}
    (tk : TurnsAbout g k p a) (tl : TurnsAbout g l p' a') (x t : ℝ) (dir : a = a'.scale x)
    (line : p = p'.add (a'.scale t)) : Singular c ign jac := by
  obtain ⟨ci, hi, fk, -⟩ := column_of u e hk
  obtain ⟨cj, hj, fl, -⟩ := column_of u e hl
  have lj := (jac_shape u w e).1
  refine singular_of_columns ne hi hj fi fj (by rwa [lj]) x fun r => ?_
  rw [fk p a tk, fl p' a' tl]
  subst dir line
  generalize (endPose h arm.nodes).trans = E
  match r with
  | 0 | 1 | 2 => simp [twist, V3.cross, V3.scale, V3.sub, V3.add]; ring
  | 3 | 4 | 5 => simp [twist, V3.scale]; ring
  | r + 6 => simp [twist]

/-- **C97** (parallel sliders).  So it is if two of them slide in the same direction or in opposite directions. -/
theorem C97_parallel (u : h.Unlocked) (w : arm.Wf h) (e : run (jacobian arm) h = .ok jac g)
    (lt : ∀ k ∈ ign, k < arm.dof) {i j : Nat} (ne : i ≠ j) {k l : NodeId} (hk : arm.movableNodes[i]? = some k)
    (hl : arm.movableNodes[j]? = some l) (fi : i ∉ ign) (fj : j ∉ ign) {a a' : V3 ℝ}
    (tk : SlidesAlong g k a) (tl : SlidesAlong g l a') (x : ℝ) (dir : a = a'.scale x) : Singular c ign jac := by
  obtain ⟨ci, hi, -, fk⟩ := column_of u e hk
  obtain ⟨cj, hj, -, fl⟩ := column_of u e hl
  have lj := (jac_shape u w e).1
  refine singular_of_columns ne hi hj fi fj (by rwa [lj]) x fun r => ?_
  rw [fk a tk, fl a' tl]
  subst dir
  match r with
  | 0 | 1 | 2 => simp [twist, V3.scale]; ring
  | 3 | 4 | 5 => simp [twist, V3.zero]
  | r + 6 => simp [twist]

/-- **C97** (stretched arms).  Let the constrained coordinates include the direction `d` (`d` has no component along
an axis whose position is free).  If, seen from every joint that is not ignored and turns, the end lies in the
direction `d`, and the others slide at right angles to `d`, then the pose is singular: the end can not move along `d`.
-/
theorem C97_stretched (u : h.Unlocked) (w : arm.Wf h) (e : run (jacobian arm) h = .ok jac g)
    (q : NoRedundancy h arm c ign) (d : V3 ℝ) (d0 : d ≠ V3.zero)
    (X : Iso ℝ) (pose : run arm.endTransform h = .ok X h)
    (cx : c.positionX = false → d.x = 0) (cy : c.positionY = false → d.y = 0) (cz : c.positionZ = false → d.z = 0)
    (all : ∀ (i : Nat) (k : NodeId), arm.movableNodes[i]? = some k → i ∉ ign →
      (∃ p a t, TurnsAbout g k p a ∧ X.trans = p.add (d.scale t)) ∨ ∃ a, SlidesAlong g k a ∧ d.dot a = 0) :
    Singular c ign jac := by
  have end_ : X = endPose h arm.nodes := by
    rw [run_endTransform _ _ u] at pose
    injection pose with pose _
    exact pose.symm
  obtain ⟨lj, hj⟩ := jac_shape u w e
  obtain ⟨is, -, -, il, lt⟩ := ignored_indices w q.names q.found q.sorted q.ignored
  have sq := q.square
  rw [← il, ← lj] at sq
  have lt' : ∀ k ∈ ign, k < jac.length := by rwa [lj]
  obtain ⟨-, -, len, -⟩ := removed (c := c) q.sorted lt' hj
  have lJ : (reducedJac (defineOperationalSpace c) ign jac).length = numConstrained c := by omega
  rw [singular_det q.sorted lt' hj sq, ← Matrix.exists_vecMul_eq_zero_iff]
  -- the constrained part of `(d, 0)`
  have ly : (selectFlags (defineOperationalSpace c) [d.x, d.y, d.z, 0, 0, 0]).length = numConstrained c := by
    rw [← (C30_count (T := ℝ) c).1]
    exact selectFlags_length _ _ rfl
  refine ⟨toVec _ (selectFlags (defineOperationalSpace c) [d.x, d.y, d.z, 0, 0, 0]), fun z => d0 ?_, ?_⟩
  · have comp : ∀ i : Nat, c.fixes i = true → [d.x, d.y, d.z, 0, 0, 0].getD i 0 = 0 := fun i hi => by
      have hi := (fixes_iff c i).1 hi
      have l := countTrue_take_lt _ i hi
      rw [(C30_count (T := ℝ) c).1] at l
      rw [← selectFlags_getD _ _ i hi]
      exact congrFun z ⟨_, l⟩
    ext
    · cases x : c.positionX
      · exact cx x
      · exact comp 0 x
    · cases x : c.positionY
      · exact cy x
      · exact comp 1 x
    · cases x : c.positionZ
      · exact cz x
      · exact comp 2 x
  · funext j
    have hjl : j.1 < (reducedJac (defineOperationalSpace c) ign jac).length := by rw [lJ]; exact j.2
    have mem : (reducedJac (defineOperationalSpace c) ign jac)[j.1] ∈
        reducedJac (defineOperationalSpace c) ign jac := List.getElem_mem hjl
    obtain ⟨⟨col', i⟩, hm, ec⟩ := List.mem_map.1 mem
    rw [List.mem_filter, List.mk_mem_zipIdx_iff_getElem?] at hm
    obtain ⟨hm, ni⟩ := hm
    have free : i ∉ ign := by simpa using ni
    simp only [List.getElem?_map, Option.map_eq_some_iff] at hm
    obtain ⟨col, hcol, rfl⟩ := hm
    have il : i < arm.movableNodes.length := by
      rw [← w.dof, ← lj]; exact (List.getElem?_eq_some_iff.1 hcol).1
    obtain ⟨col', hcol', ft, fs⟩ := column_of u e (List.getElem?_eq_getElem il)
    rw [hcol] at hcol'; cases hcol'
    have rest : ∃ x y z p r q, col = [x, y, z, p, r, q] ∧ d.x * x + d.y * y + d.z * z = 0 := by
      rcases all i _ (List.getElem?_eq_getElem il) free with ⟨p, a, t, ta, el⟩ | ⟨a, sa, da⟩
      · refine ⟨_, _, _, _, _, _, ft p a ta, ?_⟩
        rw [← end_, el]
        simp only [V3.cross, V3.sub, V3.add, V3.scale]
        ring
      · exact ⟨_, _, _, _, _, _, fs a sa, da⟩
    obtain ⟨x, y, z, p, r, q, rfl, rest⟩ := rest
    have hc : (reducedJac (defineOperationalSpace c) ign jac).getD j.1 [] =
        selectFlags (defineOperationalSpace c) [x, y, z, p, r, q] := by
      rw [List.getD_eq_getElem?_getD, List.getElem?_eq_getElem hjl, Option.getD_some]
      exact ec.symm
    show ∑ i, toVec _ _ i * toVec _ ((reducedJac (defineOperationalSpace c) ign jac).getD j.1 []) i = 0
    rw [hc, sum_toVec _ _ _ ly (by rw [← (C30_count (T := ℝ) c).1]; exact selectFlags_length _ _ rfl)]
    rw [select_dot d cx cy cz, rest]

end poses

/-! ## instance: a planar arm with two turning joints -/

/-- where the nodes of a rooted arm are after `jacobian` -/
theorem jacobian_places {h : KHeap ℝ} {arm : Chain} (l : RootedArm h arm) :
    ∃ jac g, run (jacobian arm) h = .ok jac g ∧ (∀ k, (g.get k).joint.jointType = (h.get k).joint.jointType) ∧
      ∀ p k post, arm.nodes = p ++ k :: post →
        (g.get k).joint.worldTransform = some (prodFrom h Iso.one (p ++ [k])) := by
  obtain ⟨n, rest, hc, root⟩ := l.root
  have b : Base h (n :: rest) n Iso.one := .inl ⟨root, rfl⟩
  have s' := l.serial
  rw [hc] at s'
  obtain ⟨jac, g, e, ow, cache, -⟩ := run_jacobian arm h l.unlocked l.wf (hc ▸ b.ready s')
  refine ⟨jac, g, e, fun k => (ow.same k).jointType, fun p k post split => ?_⟩
  obtain ⟨X, wx, cx⟩ := cache k (by rw [split]; simp)
  rw [hc] at wx
  show (g.get k).joint.worldTransformCache = _
  rw [cx, wx.unique (b.worldIn s' p post k (hc ▸ split))]

/-- two links of length one, turning about z -/
def planar (q r : ℝ) : KHeap ℝ :=
  { get := fun n =>
      if n = 0 then { NodeImpl.fresh { Joint.new "shoulder" (.rotational ⟨0, 0, 1⟩) with position := q } with
        children := [1] }
      else if n = 1 then { NodeImpl.fresh { Joint.new "elbow" (.rotational ⟨0, 0, 1⟩) with
          position := r, origin := atX 1 } with
        parent := some 0, children := [2] }
      else { NodeImpl.fresh { Joint.new "tip" .fixed with origin := atX 1 } with parent := some 1 }
    next := 3, dead := fun _ => false, held := fun _ => false }

def planarArm : Chain := ⟨[0, 1, 2], [0, 1], 2⟩

/-- x and y are constrained -/
def inPlane : Constraints := ⟨true, true, false, false, false, false, []⟩

theorem planar_arm (q r : ℝ) : RootedArm (planar q r) planarArm where
  unlocked := fun _ => rfl
  wf := ⟨by simp [planarArm, planar, Movable, NodeImpl.fresh, Joint.new], rfl⟩
  root := ⟨0, [1, 2], rfl, by simp [liveParent, planar, NodeImpl.fresh]⟩
  serial := by
    intro pre a b post e
    match pre, e with
    | [], e => cases e; simp [liveParent, planar]
    | [x], e => cases e; simp [liveParent, planar]
    | x :: y :: pre, e =>
      have := congrArg List.length e
      simp [planarArm] at this
      omega
  nodup := by simp [planarArm]
  rigid := by
    intro n hn
    have : n = 0 ∨ n = 1 ∨ n = 2 := by simpa [planarArm] using hn
    rcases this with rfl | rfl | rfl
    · exact ⟨by simp [planar, NodeImpl.fresh, Joint.new, Iso.IsRigid, Iso.one, Quat.one_isUnit],
        by simp [planar, NodeImpl.fresh, Joint.new, V3.IsUnit]⟩
    · exact ⟨by simp [planar, NodeImpl.fresh, Joint.new, Iso.IsRigid, atX, Quat.one_isUnit],
        by simp [planar, NodeImpl.fresh, Joint.new, V3.IsUnit]⟩
    · exact ⟨by simp [planar, NodeImpl.fresh, Joint.new, Iso.IsRigid, atX, Quat.one_isUnit],
        by simp [planar, NodeImpl.fresh, Joint.new]⟩

theorem planar_square (q r : ℝ) : NoRedundancy (planar q r) planarArm inPlane [] where
  names := by simp [inPlane]
  found := by simp [inPlane]
  sorted := by simp
  ignored := by simp [inPlane]
  square := rfl

theorem planar_oneLevel (q r : ℝ) : OneLevel (planar q r) := by
  intro m c hc
  have : ((planar q r).get m).mimicChildren = [] := by
    simp only [planar]; split
    · rfl
    · split <;> rfl
  rw [this] at hc; cases hc

theorem planar_restorable (q r : ℝ) : Restorable (planar q r) planarArm := by
  refine ⟨fun n hn _ l hl => ?_, fun n _ _ k hk => ?_, fun n hn m hm => ?_⟩
  · have : n = 0 ∨ n = 1 := by simpa [planarArm] using hn
    rcases this with rfl | rfl <;> simp [planar, NodeImpl.fresh, Joint.new] at hl
  · have : ((planar q r).get n).mimicChildren = [] := by
      simp only [planar]; split
      · rfl
      · split <;> rfl
    rw [this] at hk; cases hk
  · have : ((planar q r).get n).mimicParent = none := by
      simp only [planar]; split
      · rfl
      · split <;> rfl
    rw [this] at hm; cases hm

theorem zTurn (q : ℝ) (v : V3 ℝ) : (Quat.fromAxisAngle (⟨0, 0, 1⟩ : V3 ℝ) q).rotate v =
    ⟨v.x * Real.cos q - v.y * Real.sin q, v.y * Real.cos q + v.x * Real.sin q, v.z⟩ := by
  rw [rotate_fromAxisAngle (by simp [V3.IsUnit])]
  ext <;> simp [V3.add, V3.scale, V3.cross, V3.dot] <;> ring

theorem planar_places (q r : ℝ) :
    prodFrom (planar q r) Iso.one [0] = ⟨V3.zero, Quat.fromAxisAngle ⟨0, 0, 1⟩ q⟩ ∧
    (prodFrom (planar q r) Iso.one [0, 1]).trans = ⟨Real.cos q, Real.sin q, 0⟩ ∧
    (prodFrom (planar q r) Iso.one [0, 1]).rot.rotate ⟨0, 0, 1⟩ = ⟨0, 0, 1⟩ ∧
    (endPose (planar q r) planarArm.nodes).trans =
      ⟨Real.cos q + Real.cos (q + r), Real.sin q + Real.sin (q + r), 0⟩ := by
  have uz : (⟨0, 0, 1⟩ : V3 ℝ).IsUnit := by simp [V3.IsUnit]
  have l0 : ((planar q r).get 0).joint.localTransform = ⟨V3.zero, Quat.fromAxisAngle ⟨0, 0, 1⟩ q⟩ := by
    show Iso.one.mul _ = _
    rw [Iso.one_mul']; rfl
  have l1 : ((planar q r).get 1).joint.localTransform = ⟨⟨1, 0, 0⟩, Quat.fromAxisAngle ⟨0, 0, 1⟩ r⟩ := by
    show (atX 1).mul ⟨⟨0, 0, 0⟩, Quat.fromAxisAngle ⟨0, 0, 1⟩ r⟩ = _
    simp only [Iso.mul, atX, Quat.rotate_one, Quat.one_mul']
    simp [V3.add]
  have l2 : ((planar q r).get 2).joint.localTransform = atX 1 := by
    show (atX 1).mul Iso.one = _
    rw [Iso.mul_one']
  have q0 := Quat.fromAxisAngle_isUnit uz q
  have q1 := Quat.fromAxisAngle_isUnit uz r
  have p0 : prodFrom (planar q r) Iso.one [0] = ⟨V3.zero, Quat.fromAxisAngle ⟨0, 0, 1⟩ q⟩ := by
    show Iso.one.mul ((planar q r).get 0).joint.localTransform = _
    rw [Iso.one_mul', l0]
  have p1 : prodFrom (planar q r) Iso.one [0, 1] = (⟨V3.zero, Quat.fromAxisAngle ⟨0, 0, 1⟩ q⟩ : Iso ℝ).mul
      ⟨⟨1, 0, 0⟩, Quat.fromAxisAngle ⟨0, 0, 1⟩ r⟩ := by
    show (prodFrom (planar q r) Iso.one [0]).mul ((planar q r).get 1).joint.localTransform = _
    rw [p0, l1]
  refine ⟨p0, ?_, ?_, ?_⟩
  · rw [p1]
    simp only [Iso.mul, zTurn]
    ext <;> simp [V3.add, V3.zero]
  · rw [p1]
    simp only [Iso.mul]
    rw [Quat.rotate_mul q0 q1, zTurn, zTurn]
    ext <;> simp
  · have : endPose (planar q r) planarArm.nodes = (prodFrom (planar q r) Iso.one [0, 1]).mul (atX 1) := by
      show (prodFrom (planar q r) Iso.one [0, 1]).mul ((planar q r).get 2).joint.localTransform = _
      rw [l2]
    rw [this, p1]
    simp only [Iso.mul, atX]
    rw [Quat.rotate_mul q0 q1, zTurn, zTurn, zTurn, Real.cos_add, Real.sin_add]
    ext <;> simp [V3.add, V3.zero] <;> ring

/-- **C97** (instance).  For the planar arm the singular poses are those with the elbow stretched or folded; from there
no target is found, not even the present pose, and from everywhere else the first step succeeds. -/
theorem C97_planar (q r : ℝ) (target : Iso ℝ) (n : Nat) (n0 : 0 < n) :
    ∃ jac g, run (jacobian planarArm) (planar q r) = .ok jac g ∧
      (Singular inPlane [] jac ↔ Real.sin r = 0) ∧
      (Real.sin r = 0 → ∃ h', run (solveWithConstraints (swingSolver n) planarArm target inPlane) (planar q r) =
        .ok (.error .inverseMatrix) h' ∧ ∀ k, posOf h' k = posOf (planar q r) k) ∧
      (Real.sin r ≠ 0 → ∀ h', run (solveWithConstraints (swingSolver 1) planarArm target inPlane) (planar q r) ≠
        .ok (.error .inverseMatrix) h') := by
  have l := planar_arm q r
  obtain ⟨jac, g, e, jt, wt⟩ := jacobian_places l
  obtain ⟨w0, t1, r1, ep⟩ := planar_places q r
  have T0 : TurnsAbout g 0 V3.zero ⟨0, 0, 1⟩ := by
    refine ⟨⟨0, 0, 1⟩, _, by rw [jt]; rfl, wt [] 0 [1, 2] rfl, ?_, ?_⟩
    · show _ = (prodFrom (planar q r) Iso.one [0]).trans
      rw [w0]
    · show _ = (prodFrom (planar q r) Iso.one [0]).rot.rotate _
      rw [w0, zTurn]
      ext <;> simp
  have T1 : TurnsAbout g 1 ⟨Real.cos q, Real.sin q, 0⟩ ⟨0, 0, 1⟩ :=
    ⟨⟨0, 0, 1⟩, _, by rw [jt]; rfl, wt [0] 1 [2] rfl, t1.symm, r1.symm⟩
  have sing : Real.sin r = 0 → Singular inPlane [] jac := by
    intro z
    refine C97_stretched l.unlocked l.wf e (planar_square q r) ⟨Real.cos q, Real.sin q, 0⟩ ?_ _
      (run_endTransform _ _ l.unlocked) (by simp [inPlane]) (by simp [inPlane]) (by simp) fun i k hk _ => .inl ?_
    · intro x
      have a : Real.cos q = 0 := congrArg V3.x x
      have b : Real.sin q = 0 := congrArg V3.y x
      have := Real.sin_sq_add_cos_sq q
      rw [a, b] at this
      norm_num at this
    · match i, hk with
      | 0, hk =>
        cases hk
        refine ⟨_, _, 1 + Real.cos r, T0, ?_⟩
        rw [ep, Real.cos_add, Real.sin_add, z]
        ext <;> simp [V3.add, V3.scale, V3.zero] <;> ring
      | 1, hk =>
        cases hk
        refine ⟨_, _, Real.cos r, T1, ?_⟩
        rw [ep, Real.cos_add, Real.sin_add, z]
        ext <;> simp [V3.add, V3.scale] <;> ring
      | i + 2, hk => simp [planarArm] at hk
  have iff : Singular inPlane [] jac ↔ Real.sin r = 0 := by
    refine ⟨fun ⟨v, hv⟩ => ?_, sing⟩
    obtain ⟨c0, h0, f0, -⟩ := column_of l.unlocked e (i := 0) (k := 0) rfl
    obtain ⟨c1, h1, f1, -⟩ := column_of l.unlocked e (i := 1) (k := 1) rfl
    have lj := (jac_shape l.unlocked l.wf e).1
    have f0 := f0 _ _ T0
    have f1 := f1 _ _ T1
    rw [ep] at f0 f1
    match jac, lj, h0, h1 with
    | [a, b], _, h0, h1 =>
      cases h0; cases h1
      match v, hv.rates with
      | [x, y], _ =>
        have rx := hv.rest 0 rfl
        have ry := hv.rest 1 rfl
        simp [rowSum, f0, f1, twist, V3.cross, V3.sub, V3.zero] at rx ry
        have nz := hv.moves
        have tr := Real.sin_sq_add_cos_sq (q + r)
        have sr : Real.sin r = Real.sin (q + r) * Real.cos q - Real.cos (q + r) * Real.sin q := by
          rw [← Real.sin_sub]; congr 1; ring
        by_contra s0
        have x0 : x = 0 := by
          have : x * Real.sin r = 0 := by
            rw [sr]
            linear_combination Real.sin (q + r) * ry + Real.cos (q + r) * rx
          exact (mul_eq_zero.1 this).resolve_right s0
        subst x0
        have y0 : y = 0 := by
          have : y * (Real.sin (q + r) ^ 2 + Real.cos (q + r) ^ 2) = 0 := by
            linear_combination Real.cos (q + r) * ry - Real.sin (q + r) * rx
          rw [tr, _root_.mul_one] at this
          exact this
        subst y0
        simp at nz
  refine ⟨jac, g, e, iff, fun z => ?_, fun z h' x => ?_⟩
  · exact C97_singular _ g l.unlocked (planar_oneLevel q r) l.wf l.nodup (planar_restorable q r) exactLa_pivots n0
      (planar_square q r) jac e (sing z)
  · exact z (iff.1 ((C97_one_try _ g l.unlocked (planar_oneLevel q r) l.wf l.nodup (planar_restorable q r)
      exactLa_pivots rfl (planar_square q r) jac e).1 ⟨h', x⟩))

/-! ## instances: two joints on one axis, two parallel sliders -/

/-- two joints of the same kind, one above the other -/
def pair (t : JointType ℝ) (q r : ℝ) : KHeap ℝ :=
  { get := fun n =>
      if n = 0 then { NodeImpl.fresh { Joint.new "lower" t with position := q } with children := [1] }
      else { NodeImpl.fresh { Joint.new "upper" t with position := r, origin := ⟨⟨0, 0, 1⟩, Quat.one⟩ } with
        parent := some 0 }
    next := 2, dead := fun _ => false, held := fun _ => false }

def pairArm : Chain := ⟨[0, 1], [0, 1], 2⟩

theorem pair_arm (t : JointType ℝ) (q r : ℝ) (ht : t = .rotational ⟨0, 0, 1⟩ ∨ t = .linear ⟨0, 0, 1⟩) :
    RootedArm (pair t q r) pairArm where
  unlocked := fun _ => rfl
  wf := ⟨by rcases ht with rfl | rfl <;> simp [pairArm, pair, Movable, NodeImpl.fresh, Joint.new], rfl⟩
  root := ⟨0, [1], rfl, by simp [liveParent, pair, NodeImpl.fresh]⟩
  serial := by
    intro pre a b post e
    match pre, e with
    | [], e => cases e; simp [liveParent, pair]
    | x :: pre, e =>
      have := congrArg List.length e
      simp [pairArm] at this
      omega
  nodup := by simp [pairArm]
  rigid := by
    intro n hn
    have : n = 0 ∨ n = 1 := by simpa [pairArm] using hn
    rcases ht with rfl | rfl <;> rcases this with rfl | rfl <;>
      simp [pair, NodeImpl.fresh, Joint.new, Joint.IsRigid, Iso.IsRigid, Iso.one, Quat.one_isUnit, V3.IsUnit]

/-- every pose of the pair is singular, for all constraints -/
example (q r : ℝ) (c : Constraints) : ∃ jac g,
    run (jacobian pairArm) (pair (.rotational ⟨0, 0, 1⟩) q r) = .ok jac g ∧ Singular c [] jac := by
  have l := pair_arm (.rotational ⟨0, 0, 1⟩) q r (.inl rfl)
  obtain ⟨jac, g, e, jt, wt⟩ := jacobian_places l
  refine ⟨jac, g, e, ?_⟩
  have l0 : ((pair (.rotational ⟨0, 0, 1⟩) q r).get 0).joint.localTransform =
      ⟨V3.zero, Quat.fromAxisAngle ⟨0, 0, 1⟩ q⟩ := by
    show Iso.one.mul _ = _
    rw [Iso.one_mul']; rfl
  have l1 : ((pair (.rotational ⟨0, 0, 1⟩) q r).get 1).joint.localTransform =
      ⟨⟨0, 0, 1⟩, Quat.fromAxisAngle ⟨0, 0, 1⟩ r⟩ := by
    show (⟨⟨0, 0, 1⟩, Quat.one⟩ : Iso ℝ).mul ⟨⟨0, 0, 0⟩, Quat.fromAxisAngle ⟨0, 0, 1⟩ r⟩ = _
    simp only [Iso.mul, Quat.rotate_one, Quat.one_mul']
    simp [V3.add]
  have p1 : prodFrom (pair (.rotational ⟨0, 0, 1⟩) q r) Iso.one ([0] ++ [1]) =
      (⟨V3.zero, Quat.fromAxisAngle ⟨0, 0, 1⟩ q⟩ : Iso ℝ).mul ⟨⟨0, 0, 1⟩, Quat.fromAxisAngle ⟨0, 0, 1⟩ r⟩ := by
    show (Iso.one.mul _).mul _ = _
    rw [Iso.one_mul', l0, l1]
  have uz : (⟨0, 0, 1⟩ : V3 ℝ).IsUnit := by simp [V3.IsUnit]
  refine C97_coaxial l.unlocked l.wf e (by simp) (i := 1) (j := 0) (by decide) (k := 1) (l := 0) rfl rfl
    (by simp) (by simp) (p := ⟨0, 0, 1⟩) (a := ⟨0, 0, 1⟩) (p' := V3.zero) (a' := ⟨0, 0, 1⟩)
    ⟨⟨0, 0, 1⟩, _, by rw [jt]; rfl, wt [0] 1 [] rfl, ?_, ?_⟩
    ⟨⟨0, 0, 1⟩, _, by rw [jt]; rfl, wt [] 0 [1] rfl, ?_, ?_⟩ 1 1 ?_ ?_
  · rw [p1]; simp only [Iso.mul, zTurn]; ext <;> simp [V3.add, V3.zero]
  · rw [p1]
    simp only [Iso.mul]
    rw [Quat.rotate_mul (Quat.fromAxisAngle_isUnit uz q) (Quat.fromAxisAngle_isUnit uz r), zTurn, zTurn]
    ext <;> simp
  · show _ = (Iso.one.mul ((pair (.rotational ⟨0, 0, 1⟩) q r).get 0).joint.localTransform).trans
    rw [Iso.one_mul', l0]
  · show _ = (Iso.one.mul ((pair (.rotational ⟨0, 0, 1⟩) q r).get 0).joint.localTransform).rot.rotate _
    rw [Iso.one_mul', l0, zTurn]
    ext <;> simp
  · ext <;> simp [V3.scale]
  · ext <;> simp [V3.scale, V3.add, V3.zero]

example (q r : ℝ) (c : Constraints) : ∃ jac g,
    run (jacobian pairArm) (pair (.linear ⟨0, 0, 1⟩) q r) = .ok jac g ∧ Singular c [] jac := by
  have l := pair_arm (.linear ⟨0, 0, 1⟩) q r (.inr rfl)
  obtain ⟨jac, g, e, jt, wt⟩ := jacobian_places l
  refine ⟨jac, g, e, ?_⟩
  have l0 : ((pair (.linear ⟨0, 0, 1⟩) q r).get 0).joint.localTransform.rot = Quat.one := by
    show (Iso.one.mul _).rot = _
    rw [Iso.one_mul']; rfl
  have l1 : ((pair (.linear ⟨0, 0, 1⟩) q r).get 1).joint.localTransform.rot = Quat.one := by
    show Quat.one.mul Quat.one = _
    rw [Quat.one_mul']
  refine C97_parallel l.unlocked l.wf e (by simp) (i := 0) (j := 1) (by decide) (k := 0) (l := 1) rfl rfl
    (by simp) (by simp) (a := ⟨0, 0, 1⟩) (a' := ⟨0, 0, 1⟩)
    ⟨⟨0, 0, 1⟩, _, by rw [jt]; rfl, wt [] 0 [1] rfl, ?_⟩
    ⟨⟨0, 0, 1⟩, _, by rw [jt]; rfl, wt [0] 1 [] rfl, ?_⟩ 1 ?_
  · show _ = (Iso.one.mul ((pair (.linear ⟨0, 0, 1⟩) q r).get 0).joint.localTransform).rot.rotate _
    rw [Iso.one_mul', l0, Quat.rotate_one]
  · show _ = ((Iso.one.mul ((pair (.linear ⟨0, 0, 1⟩) q r).get 0).joint.localTransform).mul
      ((pair (.linear ⟨0, 0, 1⟩) q r).get 1).joint.localTransform).rot.rotate _
    rw [Iso.one_mul', Iso.mul, l0, l1, Quat.one_mul', Quat.rotate_one]
  · ext <;> simp [V3.scale]

end
end K
