import Verif.Props.IkEx
import Verif.Props.Nullspace
import Verif.Props.EndVelocity
import Mathlib.Analysis.Calculus.Deriv.Pow
/-!
# C59: one step of the solver moves the end towards the target
-/

namespace K
open Prog Matrix

noncomputable section

/-- What is assumed of nalgebra for a matrix with `r` rows and `n` columns: the LU solution of a square
system is a solution, the SVD solution is one if there is one, and the pseudo inverse has the right
dimensions and satisfies `J P J = J`. -/
structure LinAlg.Solves (la : LinAlg ℝ) (r n : Nat) (J : Mat ℝ) : Prop where
  lu : r = n → ∀ b x, b.length = r → la.lu J b = some x →
    x.length = n ∧ ∀ i < r, rowSum J i x = b.getD i 0
  svd : ∀ b, b.length = r → (la.svdSolve J b).length = n ∧
    ∀ x, x.length = n → (∀ i < r, rowSum J i x = b.getD i 0) →
      ∀ i < r, rowSum J i (la.svdSolve J b) = b.getD i 0
  pinvRows : ∀ col ∈ la.pinv J, col.length = n
  pinvCols : (la.pinv J).length = r
  penrose : toMat r n J * toMat n r (la.pinv J) * toMat r n J = toMat r n J

theorem countTrue_take_surj (ops : List Bool) (k : Nat) (hk : k < countTrue ops) :
    ∃ i : Nat, ops[i]? = some true ∧ countTrue (ops.take i) = k := by
  induction ops generalizing k with
  | nil => simp [countTrue] at hk
  | cons b ops ih =>
    cases b
    · obtain ⟨i, a, b⟩ := ih k (by simpa [countTrue] using hk)
      exact ⟨i + 1, by simpa using a, by simpa [countTrue] using b⟩
    · cases k with
      | zero => exact ⟨0, by simp, by simp [countTrue]⟩
      | succ k =>
        obtain ⟨i, a, b⟩ := ih k (by simpa [countTrue] using hk)
        exact ⟨i + 1, by simpa using a, by simpa [countTrue] using b⟩

theorem countTrue_take_lt (ops : List Bool) (i : Nat) (hi : ops[i]? = some true) :
    countTrue (ops.take i) < countTrue ops := by
  have hil : i < ops.length := by
    by_contra h; rw [List.getElem?_eq_none (by omega)] at hi; cases hi
  conv_rhs => rw [← List.take_append_drop i ops, List.drop_eq_getElem_cons hil]
  rw [List.getElem?_eq_getElem hil] at hi
  simp only [countTrue, List.filter_append, List.length_append, Option.some.inj hi]
  simp

/-- **C59, the step.**  Let `full` be the difference between the target and the end pose and let some
motion of the joints that are not ignored have, to first order, this effect on all constrained
coordinates.  If no joint is ignored or there are more free joints than constrained coordinates, then the
step of the solver, with or without a nullspace function, changes each constrained coordinate `i` by
`multiplier * full i` to first order. -/
theorem C59_step (s : IkSolver ℝ) (c : Constraints) (ign : List Nat)
    (jac : Mat ℝ) (full orig ps : List ℝ)
    (srt : ign.Pairwise (· < ·)) (lt : ∀ j ∈ ign, j < orig.length)
    (lj : jac.length = orig.length) (hj : ∀ col ∈ jac, col.length = 6) (lf : full.length = 6)
    (la : s.la.Solves (countTrue (defineOperationalSpace c)) (orig.length - ign.length)
      (reducedJac (defineOperationalSpace c) ign jac))
    (enough : countTrue (defineOperationalSpace c) ≤ orig.length - ign.length)
    (branch : ign = [] ∨ countTrue (defineOperationalSpace c) < orig.length - ign.length)
    (sol : ∃ d : List ℝ, d.length = orig.length ∧ (∀ j ∈ ign, d[j]? = some 0) ∧
      ∀ i : Nat, (defineOperationalSpace c)[i]? = some true → rowSum jac i d = full.getD i 0)
    (e : nextPositions s (defineOperationalSpace c) ign orig.length jac
      (selectFlags (defineOperationalSpace c) full) orig = .ok (.ok ps)) :
    ps.length = orig.length ∧
    ∀ i : Nat, (defineOperationalSpace c)[i]? = some true →
      rowSum jac i (vsub ps orig) = s.jacobianMultiplier * full.getD i 0 := by
  generalize hops : defineOperationalSpace c = ops at *
  have ho : ops.length = 6 := by rw [← hops]; rfl
  have rr : removeRows ops 0 0 jac = .ok (jac.map (selectFlags ops)) := by
    rw [removeRows_eq ops 0 0 jac (Nat.le_refl _) (by intro col hc; rw [hj col hc, ho])]
    simp
  have ri : removeIndices ign 0 (jac.map (selectFlags ops)) = .ok (reducedJac ops ign jac) := by
    rw [removeIndices_ok ign 0 _ srt (by simp) (by simpa [lj] using lt)]
    simp [reducedJac, dropIdx_eq]
  have lJ : (reducedJac ops ign jac).length = orig.length - ign.length := by
    have := removeIndices_length _ _ _ _ ri
    simp only [List.length_map, lj] at this; omega
  have il : ign.length ≤ orig.length := by
    have := removeIndices_length _ _ _ _ ri
    simp only [List.length_map, lj] at this; omega
  have hJ : ∀ col ∈ reducedJac ops ign jac, col.length = countTrue ops := by
    intro col hc
    have := dropFrom_subset 0 ign _ col hc
    obtain ⟨x, hx, rfl⟩ := List.mem_map.1 this
    exact selectFlags_length ops x (by rw [hj x hx, ho])
  have lerr : (selectFlags ops full).length = countTrue ops :=
    selectFlags_length ops full (by rw [lf, ho])
  generalize hN : orig.length - ign.length = N at *
  -- the reduced system is solvable
  have rsol : ∃ x : List ℝ, x.length = N ∧
      ∀ k < countTrue ops, rowSum (reducedJac ops ign jac) k x = (selectFlags ops full).getD k 0 := by
    obtain ⟨d, ld, z, hd⟩ := sol
    refine ⟨dropIdx ign d, ?_, fun k hk => ?_⟩
    · have := removeIndices_length ign 0 d _ (removeIndices_ok ign 0 d srt (by simp)
        (by simpa [ld] using lt))
      simp only [Nat.sub_zero, List.map_id'] at this
      rw [← dropIdx_eq] at this
      omega
    · obtain ⟨i, hi, rfl⟩ := countTrue_take_surj ops k hk
      rw [← rowSum_reduced ops ign jac d z i hi, hd i hi, selectFlags_getD ops full i hi]
  -- a solution of the reduced system, spread over all joints, gives the claim
  have fin : ∀ ys zs : List ℝ, ys.length = N →
      (∀ k < countTrue ops, rowSum (reducedJac ops ign jac) k ys = (selectFlags ops full).getD k 0) →
      insertZeros ign ys = .ok zs →
      (addPositionsWithMultiplier s.jacobianMultiplier orig zs).length = orig.length ∧
      ∀ i : Nat, ops[i]? = some true →
        rowSum jac i (vsub (addPositionsWithMultiplier s.jacobianMultiplier orig zs) orig) =
          s.jacobianMultiplier * full.getD i 0 := by
    intro ys zs ly hy ez
    obtain ⟨zs', e', d, l, z, -⟩ := insertZeros_ok ign ys srt (fun j hj => by
      have := lt j hj; omega)
    rw [ez] at e'; cases e'
    refine ⟨by simp [addPositionsWithMultiplier]; omega, fun i hi => ?_⟩
    rw [vsub_addPositions _ _ _ (by omega), rowSum_scale, rowSum_reduced ops ign jac zs z i hi, d,
      hy _ (countTrue_take_lt ops i hi), selectFlags_getD ops full i hi]
  simp only [nextPositions, rr, ri, Bind.bind, Except.bind, hN] at e
  by_cases gt : N > countTrue ops
  · rw [if_pos gt] at e
    by_cases z : countTrue ops = 0
    · rw [if_pos z] at e; cases e
    rw [if_neg z] at e
    obtain ⟨x, lx, hx⟩ := rsol
    rcases hf : s.nullspaceFunction with _ | f
    · rw [hf] at e
      rcases h0 : insertZeros ign (s.la.svdSolve (reducedJac ops ign jac) (selectFlags ops full)) with m | zs
      · simp only [h0] at e; cases e
      simp only [h0] at e
      have e : addPositionsWithMultiplier s.jacobianMultiplier orig zs = ps := by simpa using e
      rw [← e]
      have := la.svd _ lerr
      exact fin _ zs this.1 (this.2 x lx hx) h0
    · rw [hf] at e
      simp only at e
      rcases hfo : f orig with m | sub
      · rw [hfo] at e; cases e
      rw [hfo] at e
      simp only at e
      rcases hs : removeIndices ign 0 sub with m | sub'
      · rw [hs] at e; cases e
      rw [hs] at e
      simp only at e
      by_cases lsub : sub'.length ≠ N
      · rw [if_pos lsub] at e; cases e
      rw [if_neg lsub] at e
      have lsub := not_not.1 lsub
      obtain ⟨ln, eff⟩ := nullspaceStep_effect (countTrue ops) N
        (reducedJac ops ign jac) (s.la.pinv (reducedJac ops ign jac)) (selectFlags ops full) sub' hJ lJ
        la.pinvRows la.pinvCols lsub la.penrose
      rcases h1 : insertZeros ign (nullspaceStep N
        (s.la.pinv (reducedJac ops ign jac)) (reducedJac ops ign jac) (selectFlags ops full) sub') with m | zs
      · rw [h1] at e; cases e
      rw [h1] at e
      have e : addPositionsWithMultiplier s.jacobianMultiplier orig zs = ps := by simpa using e
      rw [← e]
      refine fin _ zs ln (fun k hk => ?_) h1
      rw [rowSum_mulVec (countTrue ops) N _ _ lJ ln ⟨k, hk⟩, eff,
        toVec_matVec N (countTrue ops) _ _ la.pinvRows la.pinvCols lerr]
      have ex : toVec (countTrue ops) (selectFlags ops full) =
          toMat (countTrue ops) N (reducedJac ops ign jac) *ᵥ toVec N x := by
        funext k
        rw [← rowSum_mulVec (countTrue ops) N _ x lJ lx k, hx k k.2]
        rfl
      rw [ex, Matrix.mulVec_mulVec, Matrix.mulVec_mulVec, la.penrose, ← ex]
      rfl
  · rw [if_neg gt] at e
    have sq : countTrue ops = N := by omega
    have hi : ign = [] := by
      rcases branch with b | b
      · exact b
      · omega
    rcases hl : s.la.lu (reducedJac ops ign jac) (selectFlags ops full) with _ | x
    · rw [hl] at e; cases e
    · rw [hl] at e
      have e : addPositionsWithMultiplier s.jacobianMultiplier orig x = ps := by simpa using e
      obtain ⟨lx, hx⟩ := la.lu sq _ _ lerr hl
      rw [← e]
      exact fin x x lx hx (by rw [hi]; rfl)

/-- one iteration, with the Jacobian it used -/
theorem solveOneLoop_run (s : IkSolver ℝ) (arm : Chain) (target : Iso ℝ) (ops : List Bool)
    (ign : List Nat) (h h' : KHeap ℝ) (u : h.Unlocked) (w : arm.Wf h) (diff : List ℝ)
    (e : run (solveOneLoop s arm target ops ign) h = .ok (.ok diff) h') :
    ∃ h1 jac ps, run (jacobian arm) h = .ok jac h1 ∧ OnlyWorld arm.nodes h h1 ∧
      nextPositions s ops ign arm.dof jac
        (calcPoseDiffWithConstraints target (endPose h arm.nodes) ops)
        (posList h arm.movableNodes) = .ok (.ok ps) ∧
      h' = clampAll (arm.movableNodes.zip ps) h1 := by
  simp only [solveOneLoop, run_bind, run_jointPositions h u arm w, Res.bind_ok,
    run_endTransform _ _ u] at e
  obtain ⟨jac, h1, e1, e2⟩ := Res.bind_eq_ok e
  obtain ⟨o, -⟩ := jacobian_ok arm h h1 u jac e1
  have u1 := o.unlocked u
  cases n : nextPositions s ops ign arm.dof jac
      (calcPoseDiffWithConstraints target (endPose h arm.nodes) ops)
      (posList h arm.movableNodes) with
  | error m => unfold posList at n; simp [n] at e2
  | ok x =>
    have n' := n
    unfold posList at n
    simp only [n, run_ofExcept_ok, Res.bind_ok] at e2
    cases x with
    | error e' => cases e2
    | ok ps =>
      have m := moved_clamp_chain (h' := h1) w ps
      simp only [run_bind, run_setJointPositionsClamped _ _ _ u1, Res.bind_ok,
        run_endTransform _ _ (m.unlocked u1), run_pure] at e2
      cases e2
      exact ⟨h1, jac, ps, e1, o, n', rfl⟩

theorem clamped_position_congr (j j' : Joint ℝ) (x : ℝ) (a : j'.jointType = j.jointType)
    (b : j'.limits = j.limits) (mv : j.jointType ≠ .fixed) :
    (j'.setJointPositionClamped x).position = (j.setJointPositionClamped x).position := by
  rcases j with ⟨nm, jt, p, v, lim, o, c1, c2⟩
  rcases j' with ⟨nm', jt', p', v', lim', o', c1', c2'⟩
  simp only at a b mv
  subst a b
  cases jt' <;> first | exact absurd rfl mv | (cases lim' <;> rfl)

/-- **C59.**  One iteration of the solver on a rooted non-branching chain `arm` whose end is at `E0`, for
which the constrained part of the error can be removed to first order by the joints that are not ignored:
the joints are set to `orig + d`, clamped to their limits, and while all joints move along
`orig + x * d` the end starts, at `x = 0`, with the velocity `v` and the angular velocity `a` whose
constrained coordinates are the multiplier times those of the error: the position difference
`target - E0` and the rotation vector that takes `E0` to the target. -/
theorem C59_velocity (sv : IkSolver ℝ) (arm : Chain) (target : Iso ℝ) (cs : Constraints)
    (ign : List Nat) (h h' : KHeap ℝ) (u : h.Unlocked) (w : arm.Wf h) (n : NodeId)
    (rest : List NodeId) (hc : arm.nodes = n :: rest) (s : Serial h arm.nodes) (nd : arm.nodes.Nodup)
    (root : liveParent h n = none) (ar : AllRigid h arm.nodes)
    (jac : Mat ℝ) (g : KHeap ℝ) (hjac : run (jacobian arm) h = .ok jac g)
    (E0 : Iso ℝ) (hE0 : run arm.endTransform h = .ok E0 h)
    (srt : ign.Pairwise (· < ·)) (lt : ∀ j ∈ ign, j < arm.dof)
    (la : sv.la.Solves (countTrue (defineOperationalSpace cs)) (arm.dof - ign.length)
      (reducedJac (defineOperationalSpace cs) ign jac))
    (enough : countTrue (defineOperationalSpace cs) ≤ arm.dof - ign.length)
    (branch : ign = [] ∨ countTrue (defineOperationalSpace cs) < arm.dof - ign.length)
    (sol : ∃ d : List ℝ, d.length = arm.dof ∧ (∀ j ∈ ign, d[j]? = some 0) ∧
      ∀ i : Nat, (defineOperationalSpace cs)[i]? = some true →
        rowSum jac i d = (calcPoseDiff target E0).getD i 0)
    (diff : List ℝ)
    (e : run (solveOneLoop sv arm target (defineOperationalSpace cs) ign) h = .ok (.ok diff) h') :
    ∃ orig d : List ℝ, ∃ E : ℝ → Iso ℝ, ∃ v a : V3 ℝ,
      run arm.jointPositions h = .ok orig h ∧ d.length = arm.dof ∧
      (∀ (i : Nat) (m : NodeId) (x y : ℝ), arm.movableNodes[i]? = some m → orig[i]? = some x →
        d[i]? = some y →
        (h'.get m).joint.position = ((h.get m).joint.setJointPositionClamped (x + y)).position) ∧
      (∀ x, ∃ g, run (moveTo arm (lineL orig d x)) h = .ok (E x) g) ∧ E 0 = E0 ∧
      V3.HasDeriv (fun x => (E x).trans) v 0 ∧
      (∀ b, V3.HasDeriv (fun x => (E x).rot.rotate b) (a.cross (E0.rot.rotate b)) 0) ∧
      ∀ i : Nat, (defineOperationalSpace cs)[i]? = some true →
        (twist v a).getD i 0 = sv.jacobianMultiplier * (calcPoseDiff target E0).getD i 0 := by
  obtain ⟨h1, jac', ps, e1, o, np, rfl⟩ := solveOneLoop_run sv arm target _ ign h h' u w diff e
  rw [hjac] at e1; cases e1
  rw [run_endTransform _ _ u] at hE0; cases hE0
  obtain ⟨-, cols⟩ := jacobian_ok arm h g u jac hjac
  have lo : (posList h arm.movableNodes).length = arm.dof := by simp [posList, w.dof]
  have lj : jac.length = (posList h arm.movableNodes).length := by
    rw [← cols.length_eq]; simp [posList]
  have hj : ∀ col ∈ jac, col.length = 6 := by
    intro col hcol
    obtain ⟨i, hi, rfl⟩ := List.getElem_of_mem hcol
    exact isColumn_length (cols.get (i := i) (by rw [cols.length_eq]; exact hi) hi)
  obtain ⟨lps, hstep⟩ := C59_step sv cs ign jac (calcPoseDiff target (endPose h arm.nodes))
    (posList h arm.movableNodes) ps srt (by rw [lo]; exact lt) lj hj rfl (by rw [lo]; exact la)
    (by rw [lo]; exact enough) (by rw [lo]; exact branch) (by rw [lo]; exact sol)
    (by rw [lo]; exact np)
  have jp := run_jointPositions h u arm w
  have ld : (vsub ps (posList h arm.movableNodes)).length = arm.dof := by
    simp only [vsub, List.length_zipWith, lps, lo]; simp
  have l0 : lineL (posList h arm.movableNodes) (vsub ps (posList h arm.movableNodes)) 0 =
      posList h arm.movableNodes := by
    refine List.ext_getElem (by simp [lineL, ld, lo]) fun i h1 h2 => ?_
    simp [lineL]
  obtain ⟨jac', g', E, r1, r2, r3, r4, r5⟩ := C58_end_velocity h u arm w n rest hc s nd root ar
    (lineL (posList h arm.movableNodes) (vsub ps (posList h arm.movableNodes)))
    (vsub ps (posList h arm.movableNodes)) 0 (fun x => by simp [lineL, ld, lo]) ld
    (by rw [l0]; exact jp) (fun i hi => by
      have h1 : i < (posList h arm.movableNodes).length := by rw [lo]; exact hi
      have h2 : i < (vsub ps (posList h arm.movableNodes)).length := by rw [ld]; exact hi
      simp only [lineL, List.getD_eq_getElem?_getD, List.getElem?_zipWith,
        List.getElem?_eq_getElem h1, List.getElem?_eq_getElem h2, Option.getD_some]
      simpa using ((hasDerivAt_id (0 : ℝ)).mul_const
        ((vsub ps (posList h arm.movableNodes))[i])).const_add ((posList h arm.movableNodes)[i]))
  rw [hjac] at r1; cases r1
  rw [run_endTransform _ _ u] at r3
  have E00 : E 0 = endPose h arm.nodes := by injection r3 with a _; exact a.symm
  rw [E00] at r5
  refine ⟨posList h arm.movableNodes, vsub ps (posList h arm.movableNodes), E, _, _, jp, ld, ?_, r2, E00,
    r4, r5, fun i hi => ?_⟩
  · intro i m x y hm hx hy
    have mnd : arm.movableNodes.Nodup := by rw [w.movable]; exact nd.filter _
    have hi : i < ps.length := by
      by_contra hh
      rw [List.getElem?_eq_none (by rw [ld, ← lo, ← lps]; omega)] at hy; cases hy
    have hps : ps[i]? = some (x + y) := by
      have h1 : i < (posList h arm.movableNodes).length := by rw [← lps]; exact hi
      simp only [vsub, List.getElem?_zipWith, List.getElem?_eq_getElem hi, List.getElem?_eq_getElem h1]
        at hy
      rw [List.getElem?_eq_getElem h1] at hx
      cases hx; cases hy
      rw [List.getElem?_eq_getElem hi]; simp
    have mem : (m, x + y) ∈ arm.movableNodes.zip ps := by
      refine List.mem_of_getElem? (i := i) ?_
      rw [List.getElem?_zip_eq_some]; exact ⟨hm, hps⟩
    have mm : m ∈ arm.movableNodes := List.mem_of_getElem? hm
    have mv : (h.get m).joint.jointType ≠ .fixed := by
      rw [w.movable, List.mem_filter] at mm
      exact (decide_eq_true_iff (p := Movable h m)).1 mm.2
    rw [clampAll_get _ _ (mnd.sublist (zip_fst_sublist _ _)) _ mem]
    exact clamped_position_congr _ _ _ (o.same m).jointType (o.moved.sameBut.limits m) mv
  · rw [← hstep i hi]
    match i, hi with
    | 0, _ => rfl
    | 1, _ => rfl
    | 2, _ => rfl
    | 3, _ => rfl
    | 4, _ => rfl
    | 5, _ => rfl
    | k + 6, hi => simp [defineOperationalSpace] at hi

/-- half the squared distance between two points -/
def halfSq (a b : V3 ℝ) : ℝ := 1 / 2 * ((a.x - b.x) ^ 2 + (a.y - b.y) ^ 2 + (a.z - b.z) ^ 2)

theorem halfSq_deriv (E : ℝ → Iso ℝ) (target : Iso ℝ) (mult : ℝ) (v a : V3 ℝ)
    (hv : V3.HasDeriv (fun x => (E x).trans) v 0)
    (hi : ∀ i : Nat, i < 3 → (twist v a).getD i 0 = mult * (calcPoseDiff target (E 0)).getD i 0) :
    HasDerivAt (fun x => halfSq target.trans (E x).trans)
      (- (2 * mult) * halfSq target.trans (E 0).trans) 0 := by
  have h0 := hi 0 (by omega)
  have h1 := hi 1 (by omega)
  have h2 := hi 2 (by omega)
  simp only [twist, calcPoseDiff, V3.sub, List.getD_cons_zero, List.getD_cons_succ] at h0 h1 h2
  obtain ⟨dx, dy, dz⟩ := hv
  have := ((((dx.const_sub target.trans.x).pow 2).add ((dy.const_sub target.trans.y).pow 2)).add
    ((dz.const_sub target.trans.z).pow 2)).const_mul (1 / 2 : ℝ)
  refine this.congr_deriv ?_
  rw [h0, h1, h2]
  simp [halfSq]
  ring

/-- **C59, descent.**  If moreover the three position coordinates are constrained, half the squared
distance of the end to the target position starts to shrink along the step, at the rate
`2 * multiplier` of itself. -/
theorem C59_descent (sv : IkSolver ℝ) (arm : Chain) (target : Iso ℝ) (cs : Constraints)
    (pos : cs.positionX = true ∧ cs.positionY = true ∧ cs.positionZ = true)
    (ign : List Nat) (h h' : KHeap ℝ) (u : h.Unlocked) (w : arm.Wf h) (n : NodeId)
    (rest : List NodeId) (hc : arm.nodes = n :: rest) (s : Serial h arm.nodes) (nd : arm.nodes.Nodup)
    (root : liveParent h n = none) (ar : AllRigid h arm.nodes)
    (jac : Mat ℝ) (g : KHeap ℝ) (hjac : run (jacobian arm) h = .ok jac g)
    (E0 : Iso ℝ) (hE0 : run arm.endTransform h = .ok E0 h)
    (srt : ign.Pairwise (· < ·)) (lt : ∀ j ∈ ign, j < arm.dof)
    (la : sv.la.Solves (countTrue (defineOperationalSpace cs)) (arm.dof - ign.length)
      (reducedJac (defineOperationalSpace cs) ign jac))
    (enough : countTrue (defineOperationalSpace cs) ≤ arm.dof - ign.length)
    (branch : ign = [] ∨ countTrue (defineOperationalSpace cs) < arm.dof - ign.length)
    (sol : ∃ d : List ℝ, d.length = arm.dof ∧ (∀ j ∈ ign, d[j]? = some 0) ∧
      ∀ i : Nat, (defineOperationalSpace cs)[i]? = some true →
        rowSum jac i d = (calcPoseDiff target E0).getD i 0)
    (diff : List ℝ)
    (e : run (solveOneLoop sv arm target (defineOperationalSpace cs) ign) h = .ok (.ok diff) h') :
    ∃ orig d : List ℝ, ∃ E : ℝ → Iso ℝ,
      run arm.jointPositions h = .ok orig h ∧ d.length = arm.dof ∧
      (∀ (i : Nat) (m : NodeId) (x y : ℝ), arm.movableNodes[i]? = some m → orig[i]? = some x →
        d[i]? = some y →
        (h'.get m).joint.position = ((h.get m).joint.setJointPositionClamped (x + y)).position) ∧
      (∀ x, ∃ g, run (moveTo arm (lineL orig d x)) h = .ok (E x) g) ∧
      HasDerivAt (fun x => halfSq target.trans (E x).trans)
        (- (2 * sv.jacobianMultiplier) * halfSq target.trans E0.trans) 0 := by
  obtain ⟨orig, d, E, v, a, r1, r2, r3, r4, r5, r6, -, r7⟩ := C59_velocity sv arm target cs ign h h' u w n
    rest hc s nd root ar jac g hjac E0 hE0 srt lt la enough branch sol diff e
  subst r5
  refine ⟨orig, d, E, r1, r2, r3, r4, halfSq_deriv E target _ v a r6 fun i hi => r7 i ?_⟩
  match i, hi with
  | 0, _ => simp [defineOperationalSpace, pos.1]
  | 1, _ => simp [defineOperationalSpace, pos.2.1]
  | 2, _ => simp [defineOperationalSpace, pos.2.2]
  | k + 3, hi => omega

/-! ## instance: two sliders, only x constrained -/

theorem rail_jacobian (l0 l1 p0 p1) : ∃ g, run (jacobian arm2) (rail l0 l1 p0 p1) =
    .ok [[1, 0, 0, 0, 0, 0], [1, 0, 0, 0, 0, 0]] g := by
  have root : liveParent (rail l0 l1 p0 p1) 0 = none := by simp [liveParent, rail, NodeImpl.fresh]
  have s : Serial (rail l0 l1 p0 p1) arm2.nodes := by
    intro pre a b post e
    match pre, e with
    | [], e => cases e; simp [liveParent, rail]
    | [x], e => simp [arm2] at e
    | x :: y :: pre, e => simp [arm2] at e
  obtain ⟨jac, h', W, e, hW, rfl⟩ := jacobian_columns _ (rail_unlocked l0 l1 p0 p1) arm2
    (rail_sliders l0 l1 p0 p1).wf2 0 [1] rfl s root
  refine ⟨h', ?_⟩
  rw [e]
  have t0 : (rail l0 l1 p0 p1).get 0 = { NodeImpl.fresh (slider "a" l0 p0) with children := [1] } := rfl
  have t1 : (rail l0 l1 p0 p1).get 1 = { NodeImpl.fresh (slider "b" l1 p1) with parent := some 0 } := rfl
  have r0 : (W 0).rot = Quat.one := by
    rw [hW [] 0 [1] rfl]
    simp [prodFrom, t0, NodeImpl.fresh, slider, Joint.new, Joint.localTransform, Joint.jointTransform,
      Iso.one_mul']
  have r1 : (W 1).rot = Quat.one := by
    rw [hW [0] 1 [] rfl]
    simp [prodFrom, t0, t1, NodeImpl.fresh, slider, Joint.new, Joint.localTransform,
      Joint.jointTransform, Iso.mul, Quat.mul_one']
    simp [Iso.one, Quat.mul_one']
  simp [arm2, t0, t1, colLin, colAng, twist, NodeImpl.fresh, slider, Joint.new, r0, r1, Quat.rotate_one,
    V3.zero]

/-- the solver used in the instance -/
def halfSolver : IkSolver ℝ := twoSliders.clearNullspaceFunction

theorem halfSolver_solves : halfSolver.la.Solves 1 2 [[1], [1]] := by
  have hp : halfSolver.la.pinv [[1], [1]] = [[1 / 2, 1 / 2]] := by
    simp [halfSolver, twoSliders, IkSolver.new, IkSolver.setNullspaceFunction,
      IkSolver.clearNullspaceFunction, pinv12]; norm_num
  have hs : ∀ b : ℝ, halfSolver.la.svdSolve [[1], [1]] [b] = [1 / 2 * b, 1 / 2 * b] := by
    intro b
    simp [halfSolver, twoSliders, IkSolver.new, IkSolver.setNullspaceFunction,
      IkSolver.clearNullspaceFunction, pinv12, matVec, vadd]
    norm_num
  refine ⟨by omega, fun b hb => ?_, ?_, ?_, ?_⟩
  · obtain ⟨x, rfl⟩ := List.length_eq_one_iff.1 hb
    rw [hs]
    refine ⟨rfl, fun _ _ _ i hi => ?_⟩
    have : i = 0 := by omega
    subst this
    simp [rowSum]
    ring
  · rw [hp]; simp
  · rw [hp]; rfl
  · rw [hp]
    ext i j
    fin_cases i; fin_cases j <;>
    simp [toMat, Matrix.mul_apply, Fin.sum_univ_succ] <;> norm_num

/-- two sliders at 0 and a target 6 away, with the multiplier 1: the end starts with the velocity 6 -/
example : ∃ h' orig d, ∃ E : ℝ → Iso ℝ, ∃ v, run (solveOneLoop halfSolver arm2 (atX 6) (defineOperationalSpace (onlyX [])) [])
      (rail none none 0 0) = .ok (.ok [0]) h' ∧
    (∀ x, ∃ g, run (moveTo arm2 (lineL orig d x)) (rail none none 0 0) = .ok (E x) g) ∧
    V3.HasDeriv (fun x => (E x).trans) v 0 ∧ v.x = 6 := by
  have u := rail_unlocked none none 0 0
  have sl := rail_sliders none none 0 0
  obtain ⟨g, hj⟩ := rail_jacobian none none 0 0
  have ep : endPose (rail none none 0 0) arm2.nodes = atX 0 := by
    rw [sl.pose2]
    simp [rail, slider, NodeImpl.fresh, Joint.new]
  have hr : reducedJac (defineOperationalSpace (onlyX [])) []
      [[1, 0, 0, 0, 0, 0], [1, 0, 0, 0, 0, 0]] = [[1], [1]] := by
    simp [reducedJac, defineOperationalSpace, onlyX, selectFlags, dropIdx, List.zipIdx]
  have pl : posList (rail none none 0 0) arm2.movableNodes = [0, 0] := by
    simp [posList, arm2, rail, slider, NodeImpl.fresh, Joint.new]
  have np : nextPositions halfSolver (defineOperationalSpace (onlyX [])) [] arm2.dof
      [[1, 0, 0, 0, 0, 0], [1, 0, 0, 0, 0, 0]] [6 - 0] [0, 0] = .ok (.ok [3, 3]) := by
    simp [nextPositions, countTrue, defineOperationalSpace, onlyX, removeRows, removeRow, Bind.bind,
      Except.bind, removeIndices, insertZeros, halfSolver, twoSliders, IkSolver.new, arm2,
      IkSolver.setNullspaceFunction, IkSolver.clearNullspaceFunction, pinv12, matVec, vadd,
      addPositionsWithMultiplier]
    norm_num
  obtain ⟨o, -⟩ := jacobian_ok _ _ _ u _ hj
  have hj' := hj
  have m := moved_clamp_chain (h' := g) sl.wf2 [3, 3]
  have u1 := o.unlocked u
  have e : run (solveOneLoop halfSolver arm2 (atX 6) (defineOperationalSpace (onlyX [])) [])
      (rail none none 0 0) = .ok (.ok [0]) (clampAll (arm2.movableNodes.zip [3, 3]) g) := by
    have np' : nextPositions halfSolver (defineOperationalSpace (onlyX [])) [] arm2.dof
        [[1, 0, 0, 0, 0, 0], [1, 0, 0, 0, 0, 0]] [6 - 0]
        (arm2.movableNodes.map fun n => ((rail none none 0 0).get n).joint.position) =
        .ok (.ok [3, 3]) := by
      rw [show (arm2.movableNodes.map fun n => ((rail none none 0 0).get n).joint.position) = [0, 0]
        from pl]
      exact np
    simp only [solveOneLoop, run_bind, run_jointPositions _ u arm2 sl.wf2, Res.bind_ok,
      run_endTransform _ _ u, ep, onlyX_diff, hj', np', run_ofExcept_ok,
      run_setJointPositionsClamped _ _ _ u1, run_endTransform _ _ (m.unlocked u1), run_pure]
    have sl' := sl.same (o.moved.sameBut.trans m.sameBut)
    rw [sl'.pose2, onlyX_diff]
    have nd : ((arm2.movableNodes.zip [(3 : ℝ), 3]).map Prod.fst).Nodup := by simp [arm2]
    have c0 := clampAll_get (arm2.movableNodes.zip [3, 3]) g nd (0, 3) (by simp [arm2])
    have c1 := clampAll_get (arm2.movableNodes.zip [3, 3]) g nd (1, 3) (by simp [arm2])
    have q : ∀ k, k = 0 ∨ k = 1 → ((g.get k).joint.setJointPositionClamped 3).position = 3 := by
      intro k hk
      have mv := (sl.same o.moved.sameBut).movable k hk
      have hl : (g.get k).joint.limits = none := by
        rw [o.moved.sameBut.limits]
        rcases hk with rfl | rfl <;> simp [rail, slider, NodeImpl.fresh]
      have mv' : (g.get k).joint.isMovable = true := (isMovable_iff _).2 mv
      simp [Joint.setJointPositionClamped, mv', hl, Joint.setJointPositionUnchecked]
    rw [c0, c1, q 0 (.inl rfl), q 1 (.inr rfl)]
    norm_num
  obtain ⟨orig, d, E, v, a, r1, r2, r3, r4, r5, r6, -, r7⟩ := C59_velocity halfSolver arm2 (atX 6)
    (onlyX []) [] (rail none none 0 0) _ u sl.wf2 0 [1] rfl
    (by
      intro pre a b post e
      match pre, e with
      | [], e => cases e; simp [liveParent, rail]
      | [x], e => simp [arm2] at e
      | x :: y :: pre, e => simp [arm2] at e)
    (by simp [arm2]) (by simp [liveParent, rail, NodeImpl.fresh])
    (by
      intro k hk
      have hk : k = 0 ∨ k = 1 := by simpa [arm2] using hk
      obtain ⟨x, y⟩ := sl k hk
      unfold Joint.IsRigid
      rw [x, y]
      exact ⟨by simp [Iso.IsRigid, Iso.one, Quat.one_isUnit], by simp [V3.IsUnit]⟩)
    _ g hj (atX 0) (by rw [run_endTransform _ _ u, ep]) (by simp) (by simp)
    (by rw [hr]; exact halfSolver_solves) (by simp [onlyX_count, arm2]) (.inl rfl)
    ⟨[3, 3], rfl, by simp, fun i hi => by
      match i, hi with
      | 0, _ => simp [rowSum, calcPoseDiff, atX, V3.sub]; norm_num
      | 1, hi => cases hi
      | 2, hi => cases hi
      | 3, hi => cases hi
      | 4, hi => cases hi
      | 5, hi => cases hi
      | k + 6, hi => simp [defineOperationalSpace] at hi⟩ _ e
  refine ⟨_, orig, d, E, v, e, r4, r6, ?_⟩
  have := r7 0 rfl
  simpa [twist, halfSolver, twoSliders, IkSolver.new, IkSolver.setNullspaceFunction,
    IkSolver.clearNullspaceFunction, calcPoseDiff, atX, V3.sub] using this

end
end K
