import Verif.Lemmas.LinAlg
import Mathlib.LinearAlgebra.Matrix.Symmetric
import Mathlib.Analysis.Calculus.Deriv.Pow
import Mathlib.Analysis.Calculus.Deriv.Mul
import Mathlib.Analysis.Calculus.Deriv.Add
import Mathlib.Tactic.FinCases
import Mathlib.Tactic.NormNum
/-!
# C38, C39, C51: nullspace functions
-/

namespace K
open Matrix

noncomputable section

/-! ## What the preparation of the Jacobian computes -/

theorem removeRows_eq {T : Type} [Scalar T] (fs : List Bool) (i removed : Nat) (m : Mat T) (hr : removed ≤ i)
    (hm : ∀ col ∈ m, col.length = i - removed + fs.length) :
    removeRows fs i removed m =
      .ok (m.map fun col => col.take (i - removed) ++ selectFlags fs (col.drop (i - removed))) := by
  induction fs generalizing i removed m with
  | nil =>
    rw [removeRows]
    have : m.map (fun col => col.take (i - removed) ++ selectFlags [] (col.drop (i - removed))) =
        m.map id := List.map_congr_left fun col hc => by
      have := hm col hc
      rw [show selectFlags [] (col.drop (i - removed)) = [] by unfold selectFlags; rfl,
        List.append_nil, List.take_of_length_le (by simp at this; omega)]
      rfl
    rw [this, List.map_id]
  | cons b fs ih =>
    cases b
    · have ok : removeRow m (i - removed) = .ok (m.map fun col => col.eraseIdx (i - removed)) := by
        rw [removeRow, if_pos]
        simp only [List.all_eq_true, decide_eq_true_eq]
        intro col hc; have := hm col hc; simp at this; omega
      simp only [removeRows, ok, Bind.bind, Except.bind]
      rw [ih (i + 1) (removed + 1) _ (by omega)]
      · rw [List.map_map]
        congr 1
        refine List.map_congr_left fun col hc => ?_
        have hl := hm col hc
        simp only [List.length_cons] at hl
        rw [show i + 1 - (removed + 1) = i - removed by omega] at *
        simp only [Function.comp]
        rw [List.eraseIdx_eq_take_drop_succ]
        rw [List.take_left' (by simp; omega), List.drop_left' (by simp; omega)]
        rw [List.drop_eq_getElem_cons (show i - removed < col.length by omega), selectFlags]
      · intro col hc
        obtain ⟨c, hc', rfl⟩ := List.mem_map.1 hc
        have := hm c hc'
        simp only [List.length_cons] at this
        rw [List.length_eraseIdx_of_lt (by omega)]; omega
    · rw [removeRows, ih (i + 1) removed m (by omega)]
      · congr 1
        refine List.map_congr_left fun col hc => ?_
        have hl := hm col hc
        simp only [List.length_cons] at hl
        have lt : i - removed < col.length := by omega
        rw [show i + 1 - removed = i - removed + 1 by omega, List.drop_eq_getElem_cons lt, selectFlags,
          List.take_succ_eq_append_getElem lt, List.append_assoc]
        rfl
      · intro col hc; have := hm col hc; simp at this; omega

theorem removeIndices_length {α : Type} (is : List Nat) (i : Nat) (xs ys : List α)
    (e : removeIndices is i xs = .ok ys) : ys.length + is.length = xs.length := by
  induction is generalizing i xs with
  | nil => cases e; rfl
  | cons a is ih =>
    rw [removeIndices] at e
    split at e
    · cases e
    · split at e
      · rename_i h
        have := ih _ _ e
        rw [List.length_eraseIdx_of_lt h] at this
        simp only [List.length_cons]; omega
      · cases e

/-! ## C38 -/

/-- the Jacobian restricted to the constrained coordinates and the joints that are not ignored -/
def reducedJac (ops : List Bool) (ign : List Nat) (jac : Mat ℝ) : Mat ℝ :=
  dropIdx ign (jac.map (selectFlags ops))

/-- row `i` of the Jacobian is a row of the reduced Jacobian if coordinate `i` is constrained; with no
motion of the ignored joints both have the same first-order effect -/
theorem rowSum_reduced (ops : List Bool) (ign : List Nat) (jac : Mat ℝ) (zs : List ℝ)
    (z : ∀ j ∈ ign, zs[j]? = some 0) (i : Nat) (hi : ops[i]? = some true) :
    rowSum jac i zs = rowSum (reducedJac ops ign jac) (countTrue (ops.take i)) (dropIdx ign zs) := by
  rw [reducedJac, dropIdx_eq, dropIdx_eq, rowSum_dropFrom 0 ign _ _ zs (fun j hj _ _ => z j hj)]
  unfold rowSum
  congr 1
  clear z
  induction jac generalizing zs with
  | nil => rfl
  | cons c jac ih =>
    cases zs with
    | nil => rfl
    | cons x zs =>
      rw [List.map_cons, List.zip_cons_cons, List.zip_cons_cons, List.map_cons, List.map_cons, ih,
        selectFlags_getD ops c i hi]

theorem vsub_addPositions (k : ℝ) (orig zs : List ℝ) (l : zs.length = orig.length) :
    vsub (addPositionsWithMultiplier k orig zs) orig = zs.map (k * ·) := by
  induction orig generalizing zs with
  | nil => rw [List.length_eq_zero_iff.1 l]; rfl
  | cons x orig ih =>
    cases zs with
    | nil => simp at l
    | cons z zs =>
      have := ih zs (by simpa using l)
      simp only [vsub, addPositionsWithMultiplier, List.zipWith_cons_cons, List.map_cons] at this ⊢
      rw [this, add_sub_cancel_left]

theorem nullspaceStep_toVec (r n : Nat) (J P : Mat ℝ) (err sub : List ℝ)
    (hJ : ∀ c ∈ J, c.length = r) (lJ : J.length = n) (hP : ∀ c ∈ P, c.length = n) (lP : P.length = r)
    (ls : sub.length = n) :
    toVec n (nullspaceStep n P J err sub) = toVec n (matVec n P err) +
      (1 - toMat n r P * toMat r n J) *ᵥ toVec n sub := by
  have l1 : (matVec n P err).length = n := matVec_length n P err hP
  have hm : ∀ c ∈ matMul n P J, c.length = n := by
    intro c hc
    obtain ⟨x, -, rfl⟩ := List.mem_map.1 hc
    exact matVec_length n P x hP
  have lm : (matMul n P J).length = n := by simp [matMul, lJ]
  have ho : ∀ c ∈ (matOne n : Mat ℝ), c.length = n := by
    intro c hc
    obtain ⟨x, -, rfl⟩ := List.mem_map.1 hc
    simp
  have lo : (matOne n : Mat ℝ).length = n := by simp [matOne]
  have hs : ∀ c ∈ matSub (matOne n) (matMul n P J), c.length = n := by
    intro c hc
    obtain ⟨i, hi, rfl⟩ := List.getElem_of_mem hc
    simp only [matSub, List.getElem_zipWith]
    simp only [matSub, List.length_zipWith] at hi
    simp [vsub, hm _ (List.getElem_mem (by omega : i < (matMul n P J).length)),
      ho _ (List.getElem_mem (by omega : i < (matOne n : Mat ℝ).length))]
  have lsb : (matSub (matOne n) (matMul n P J)).length = n := by simp [matSub, lo, lm]
  have l2 : (matVec n (matSub (matOne n) (matMul n P J)) sub).length = n := matVec_length n _ sub hs
  rw [nullspaceStep, toVec_vadd n _ _ l1 l2,
    toVec_matVec n n _ sub hs lsb ls, toMat_matSub n n _ _ ho lo hm lm, toMat_matOne,
    toMat_matMul n r n P J hP lP hJ lJ]

/-- the nullspace term does not change the first-order effect -/
theorem nullspaceStep_effect (r n : Nat) (J P : Mat ℝ) (err sub : List ℝ)
    (hJ : ∀ c ∈ J, c.length = r) (lJ : J.length = n) (hP : ∀ c ∈ P, c.length = n) (lP : P.length = r)
    (ls : sub.length = n)
    (pen : toMat r n J * toMat n r P * toMat r n J = toMat r n J) :
    (nullspaceStep n P J err sub).length = n ∧
    toMat r n J *ᵥ toVec n (nullspaceStep n P J err sub) =
      toMat r n J *ᵥ toVec n (matVec n P err) := by
  refine ⟨?_, ?_⟩
  · refine vadd_length _ _ n (matVec_length n P err hP) (matVec_length n _ sub fun c hc => ?_)
    obtain ⟨i, hi, rfl⟩ := List.getElem_of_mem hc
    simp only [matSub, List.length_zipWith, matOne, matMul, List.length_map, List.length_range] at hi
    simp [matSub, vsub, matOne, matMul, matVec_length n P _ hP]
  · rw [nullspaceStep_toVec r n J P err sub hJ lJ hP lP ls, Matrix.mulVec_add,
      Matrix.mulVec_mulVec, Matrix.mul_sub, Matrix.mul_one,
      ← Matrix.mul_assoc, pen, sub_self, Matrix.zero_mulVec, add_zero]

/-- **C38.**  Let `J` be the Jacobian restricted to the constrained coordinates and the joints that are
not ignored, let the pseudo inverse `P` that nalgebra computes satisfy `J P J = J`, and let the SVD
solution of `J x = err` be `P err`.  Then for every constrained coordinate the first-order change
`∑ⱼ jac(i,j) (q'ⱼ - qⱼ)` made by the step with a nullspace function is the one made by the step without. -/
theorem C38_nullspace (s : IkSolver ℝ) (c : Constraints) (ign : List Nat)
    (jac : Mat ℝ) (err orig ps ps0 : List ℝ)
    (srt : ign.Pairwise (· < ·)) (lt : ∀ j ∈ ign, j < orig.length)
    (lj : jac.length = orig.length) (hj : ∀ col ∈ jac, col.length = 6)
    (hP : ∀ col ∈ s.la.pinv (reducedJac (defineOperationalSpace c) ign jac),
      col.length = orig.length - ign.length)
    (lP : (s.la.pinv (reducedJac (defineOperationalSpace c) ign jac)).length =
      countTrue (defineOperationalSpace c))
    (pen : toMat (countTrue (defineOperationalSpace c)) (orig.length - ign.length)
        (reducedJac (defineOperationalSpace c) ign jac) *
      toMat (orig.length - ign.length) (countTrue (defineOperationalSpace c))
        (s.la.pinv (reducedJac (defineOperationalSpace c) ign jac)) *
      toMat (countTrue (defineOperationalSpace c)) (orig.length - ign.length)
        (reducedJac (defineOperationalSpace c) ign jac) =
      toMat (countTrue (defineOperationalSpace c)) (orig.length - ign.length)
        (reducedJac (defineOperationalSpace c) ign jac))
    (svd : s.la.svdSolve (reducedJac (defineOperationalSpace c) ign jac) err =
      matVec (orig.length - ign.length)
        (s.la.pinv (reducedJac (defineOperationalSpace c) ign jac)) err)
    (e : nextPositions s (defineOperationalSpace c) ign orig.length jac err orig = .ok (.ok ps))
    (e0 : nextPositions s.clearNullspaceFunction (defineOperationalSpace c) ign orig.length jac err
      orig = .ok (.ok ps0))
    (i : Nat) (hi : (defineOperationalSpace c)[i]? = some true) :
    rowSum jac i (vsub ps orig) = rowSum jac i (vsub ps0 orig) := by
  generalize hops : defineOperationalSpace c = ops at *
  have ho : ops.length = 6 := by rw [← hops]; rfl
  have rr : removeRows ops 0 0 jac = .ok (jac.map (selectFlags ops)) := by
    rw [removeRows_eq ops 0 0 jac (Nat.le_refl _) (by intro col hc; rw [hj col hc, ho])]
    simp
  have ri : removeIndices ign 0 (jac.map (selectFlags ops)) = .ok (reducedJac ops ign jac) := by
    rw [removeIndices_ok ign 0 _ srt (by simp) (by simpa [lj] using lt)]
    simp [reducedJac, dropIdx_eq]
  have lJ : (reducedJac ops ign jac).length = orig.length - ign.length := by
    have := removeIndices_length _ _ _ _ ri
    simp only [List.length_map, lj] at this; omega
  have hJ : ∀ col ∈ reducedJac ops ign jac, col.length = countTrue ops := by
    intro col hc
    have := dropFrom_subset 0 ign _ col hc
    obtain ⟨x, hx, rfl⟩ := List.mem_map.1 this
    exact selectFlags_length ops x (by rw [hj x hx, ho])
  have hk : countTrue (ops.take i) < countTrue ops := by
    have hil : i < ops.length := by
      by_contra h; rw [List.getElem?_eq_none (by omega)] at hi; cases hi
    conv_rhs => rw [← List.take_append_drop i ops, List.drop_eq_getElem_cons hil]
    rw [List.getElem?_eq_getElem hil] at hi
    simp only [countTrue, List.filter_append, List.length_append, Option.some.inj hi]
    simp
  have fin : ∀ ys zs : List ℝ, ys.length = orig.length - ign.length →
      insertZeros ign ys = .ok zs →
      rowSum jac i (vsub (addPositionsWithMultiplier s.jacobianMultiplier orig zs) orig) =
        s.jacobianMultiplier * (toMat (countTrue ops) (orig.length - ign.length)
          (reducedJac ops ign jac) *ᵥ toVec (orig.length - ign.length) ys)
            ⟨countTrue (ops.take i), hk⟩ := by
    intro ys zs ly ez
    have il : ign.length ≤ orig.length := by
      have := removeIndices_length _ _ _ _ ri
      simp only [List.length_map, lj] at this; omega
    obtain ⟨zs', e', d, l, z, -⟩ := insertZeros_ok ign ys srt (fun j hj => by
      have := lt j hj; omega)
    rw [ez] at e'; cases e'
    rw [vsub_addPositions _ _ _ (by omega), rowSum_scale, rowSum_reduced ops ign jac zs z i hi, d]
    congr 1
    exact rowSum_mulVec _ _ _ ys lJ ly ⟨_, hk⟩
  simp only [nextPositions, rr, ri, Bind.bind, Except.bind, IkSolver.clearNullspaceFunction] at e e0
  by_cases gt : orig.length - ign.length > countTrue ops
  · rw [if_pos gt] at e e0
    by_cases z : countTrue ops = 0
    · rw [if_pos z] at e; cases e
    · rw [if_neg z] at e e0
      rcases h0 : insertZeros ign (s.la.svdSolve (reducedJac ops ign jac) err) with m | zs0
      · rw [h0] at e0; cases e0
      rw [h0] at e0
      have e0 : addPositionsWithMultiplier s.jacobianMultiplier orig zs0 = ps0 := by
        simpa using e0
      have f0 := fin _ zs0 (by rw [svd]; exact matVec_length _ _ _ hP) h0
      rw [e0] at f0
      rw [f0]
      rcases hf : s.nullspaceFunction with _ | f
      · rw [hf] at e
        simp only [h0] at e
        have e : addPositionsWithMultiplier s.jacobianMultiplier orig zs0 = ps := by simpa using e
        rw [← e, fin _ zs0 (by rw [svd]; exact matVec_length _ _ _ hP) h0]
      · rw [hf] at e
        simp only at e
        rcases hfo : f orig with m | sub
        · rw [hfo] at e; cases e
        rw [hfo] at e
        simp only at e
        rcases hs : removeIndices ign 0 sub with m | sub'
        · rw [hs] at e; cases e
        rw [hs] at e
        simp only at e
        by_cases lsub : sub'.length ≠ orig.length - ign.length
        · rw [if_pos lsub] at e; cases e
        rw [if_neg lsub] at e
        have lsub := not_not.1 lsub
        obtain ⟨ln, eff⟩ := nullspaceStep_effect (countTrue ops) (orig.length - ign.length)
          (reducedJac ops ign jac) (s.la.pinv (reducedJac ops ign jac)) err sub' hJ lJ hP lP lsub pen
        rcases h1 : insertZeros ign (nullspaceStep (orig.length - ign.length)
          (s.la.pinv (reducedJac ops ign jac)) (reducedJac ops ign jac) err sub') with m | zs
        · rw [h1] at e; cases e
        rw [h1] at e
        have e : addPositionsWithMultiplier s.jacobianMultiplier orig zs = ps := by simpa using e
        rw [← e, fin _ zs ln h1, eff, svd]
  · rw [if_neg gt] at e e0
    rcases hl : s.la.lu (reducedJac ops ign jac) err with _ | x
    · rw [hl] at e; cases e
    · rw [hl] at e e0
      have e : addPositionsWithMultiplier s.jacobianMultiplier orig x = ps := by simpa using e
      have e0 : addPositionsWithMultiplier s.jacobianMultiplier orig x = ps0 := by simpa using e0
      rw [← e, ← e0]

/-- a pseudo inverse of a `1 × 2` matrix `(a b)`: the transpose divided by `a² + b²` -/
def pinv12 : Mat ℝ → Mat ℝ
  | [[a], [b]] => [[a / (a ^ 2 + b ^ 2), b / (a ^ 2 + b ^ 2)]]
  | _ => []

/-- two prismatic joints along x of which only the x coordinate is constrained: the nullspace function
asks for the motion (1, 0); half of it remains, with the joints moving in opposite directions -/
def twoSliders : IkSolver ℝ :=
  (IkSolver.new ⟨fun _ _ => none, fun m b => matVec 2 (pinv12 m) b, pinv12⟩ 0 0 1 1).setNullspaceFunction
    fun _ => .ok [1, 0]

example : ∃ ps ps0, ps ≠ ps0 ∧
    rowSum [[1, 0, 0, 0, 0, 0], [1, 0, 0, 0, 0, 0]] 0 (vsub ps [0, 0]) =
      rowSum [[1, 0, 0, 0, 0, 0], [1, 0, 0, 0, 0, 0]] 0 (vsub ps0 [0, 0]) := by
  have hr : reducedJac (defineOperationalSpace ⟨true, false, false, false, false, false, []⟩) []
      [[1, 0, 0, 0, 0, 0], [1, 0, 0, 0, 0, 0]] = [[1], [1]] := by
    simp [reducedJac, defineOperationalSpace, selectFlags, dropIdx, List.zipIdx]
  have hc : countTrue (defineOperationalSpace ⟨true, false, false, false, false, false, []⟩) = 1 := rfl
  refine ⟨[1, 0], [1 / 2, 1 / 2], by simp, C38_nullspace twoSliders
    ⟨true, false, false, false, false, false, []⟩ []
    [[1, 0, 0, 0, 0, 0], [1, 0, 0, 0, 0, 0]] [1] [0, 0] [1, 0] [1 / 2, 1 / 2] (by simp) (by simp) rfl
    (by simp) ?_ ?_ ?_ ?_ ?_ ?_ 0 rfl⟩
  all_goals try simp only [hr, hc]
  · simp [twoSliders, IkSolver.new, IkSolver.setNullspaceFunction, pinv12]
  · simp [twoSliders, IkSolver.new, IkSolver.setNullspaceFunction, pinv12]
  · show toMat 1 2 _ * toMat 2 1 _ * toMat 1 2 _ = toMat 1 2 _
    ext i j
    fin_cases i <;> fin_cases j <;>
    simp [twoSliders, IkSolver.new, IkSolver.setNullspaceFunction, pinv12, toMat, Matrix.mul_apply,
      Fin.sum_univ_succ] <;> norm_num
  · rfl
  · simp [nextPositions, countTrue, defineOperationalSpace, removeRows, removeRow, Bind.bind, Except.bind,
      removeIndices, insertZeros, twoSliders, IkSolver.new, IkSolver.setNullspaceFunction, pinv12,
      nullspaceStep, matVec, matMul, matSub, matOne, vadd, vsub, addPositionsWithMultiplier,
      List.range_succ]
  · simp [nextPositions, countTrue, defineOperationalSpace, removeRows, removeRow, Bind.bind, Except.bind,
      removeIndices, insertZeros, twoSliders, IkSolver.new, IkSolver.setNullspaceFunction,
      IkSolver.clearNullspaceFunction, pinv12, matVec, vadd, addPositionsWithMultiplier]
    norm_num

/-! ## C39 -/

/-- `½ ∑ wᵢ (qᵢ - refᵢ)²` -/
def refCost : List ℝ → List ℝ → List ℝ → ℝ
  | r :: ref, w :: ws, q :: qs => 1 / 2 * (w * (q - r) ^ 2) + refCost ref ws qs
  | _, _, _ => 0

/-- `∑ aᵢ bᵢ` -/
def dotL : List ℝ → List ℝ → ℝ
  | a :: as, b :: bs => a * b + dotL as bs
  | _, _ => 0

/-- `q + t v` -/
def lineL (q v : List ℝ) (t : ℝ) : List ℝ := List.zipWith (fun a b => a + t * b) q v

/-- **C39.**  The function made for `ref` and `w` (of equal lengths) returns, at positions `q` at least
as many as `ref`, one entry per reference position, and the vector it returns is the gradient of
`½ ∑ wᵢ (qᵢ - refᵢ)²` at `q`: its product with any direction `v` is the derivative in that direction. -/
theorem C39_gradient (ref w : List ℝ) (l : ref.length = w.length) :
    ∃ f, createReferencePositionsNullspaceFunction ref w = .ok f ∧
      ∀ q : List ℝ, ref.length ≤ q.length → ∃ g, f q = .ok g ∧ g.length = ref.length ∧
        ∀ v : List ℝ, v.length = q.length →
          HasDerivAt (fun t => refCost ref w (lineL q v t)) (dotL g v) 0 := by
  refine ⟨_, by rw [createReferencePositionsNullspaceFunction, if_pos l], fun q hq => ⟨_, by
    rw [referenceNullspace, if_neg (by omega)], by simp; omega, ?_⟩⟩
  induction ref generalizing w q with
  | nil =>
    intro v _
    rw [List.length_eq_zero_iff.1 l.symm]
    simp only [refCost, List.zipWith_nil_left, dotL]
    exact hasDerivAt_const _ _
  | cons r ref ih =>
    intro v hv
    cases w with
    | nil => simp at l
    | cons w ws =>
      cases q with
      | nil => simp at hq
      | cons q qs =>
        cases v with
        | nil => simp at hv
        | cons v vs =>
          have := ih ws (by simpa using l) qs (by simpa using hq) vs (by simpa using hv)
          simp only [lineL, List.zipWith_cons_cons, refCost, dotL] at this ⊢
          refine HasDerivAt.add ?_ this
          have h1 : HasDerivAt (fun t : ℝ => q + t * v - r) v 0 := by
            simpa using (((hasDerivAt_id (0 : ℝ)).mul_const v).const_add q).sub_const r
          have h2 := ((h1.pow 2).const_mul w).const_mul (1 / 2)
          refine h2.congr_deriv ?_
          simp; ring

/-- **C39, lengths.**  References and weights of different lengths panic when the function is made;
fewer positions than references panic when it is called. -/
theorem C39_lengths (ref w : List ℝ) :
    (ref.length ≠ w.length → ∃ m, createReferencePositionsNullspaceFunction ref w = .error m) ∧
    ∀ f, createReferencePositionsNullspaceFunction ref w = .ok f →
      ∀ q : List ℝ, q.length < ref.length → ∃ m, f q = .error m := by
  refine ⟨fun h => ⟨_, by rw [createReferencePositionsNullspaceFunction, if_neg h]⟩, fun f e q hq => ?_⟩
  rw [createReferencePositionsNullspaceFunction] at e
  split at e
  · cases e
    exact ⟨_, by rw [referenceNullspace, if_pos hq]⟩
  · cases e

/-- two references: the gradient at (3, 5) for references (1, 1) and weights (2, 10) is (4, 40) -/
example : ∃ f, createReferencePositionsNullspaceFunction [1, 1] [2, 10] = .ok f ∧
    f [3, 5] = .ok [(4 : ℝ), 40] := by
  refine ⟨_, by rw [createReferencePositionsNullspaceFunction, if_pos (by rfl)], ?_⟩
  simp [referenceNullspace]; norm_num

/-! ## C51 -/

theorem dotL_eq (g d : List ℝ) : dotL g d = rowSum (g.map fun x => [x]) 0 d := by
  induction g generalizing d with
  | nil => simp [dotL, rowSum]
  | cons x g ih =>
    cases d with
    | nil => simp [dotL, rowSum]
    | cons y d =>
      have := ih d
      simp only [rowSum, List.map_cons, List.zip_cons_cons, List.sum_cons, dotL] at this ⊢
      rw [this]; rfl

theorem dotL_toVec (n : Nat) (g d : List ℝ) (lg : g.length = n) (ld : d.length = n) :
    dotL g d = toVec n g ⬝ᵥ toVec n d := by
  rw [dotL_eq]
  refine (rowSum_mulVec 1 n _ d (by simp [lg]) ld 0).trans ?_
  simp only [Matrix.mulVec, dotProduct]
  refine Finset.sum_congr rfl fun j _ => ?_
  have : j.val < g.length := by rw [lg]; exact j.2
  simp [toMat, toVec, List.getD_eq_getElem?_getD, this]

theorem dotL_drop (ign : List Nat) (g d : List ℝ) (z : ∀ j ∈ ign, d[j]? = some 0) :
    dotL g d = dotL (dropIdx ign g) (dropIdx ign d) := by
  rw [dotL_eq, dotL_eq, dropIdx_eq, dropIdx_eq, ← dropFrom_map,
    rowSum_dropFrom 0 ign _ _ d (fun j hj _ _ => z j hj)]

theorem dotL_add (k : ℝ) (g orig a b : List ℝ) (la : a.length = orig.length)
    (lb : b.length = orig.length) :
    dotL g (vsub (addPositionsWithMultiplier k orig a) (addPositionsWithMultiplier k orig b)) =
      k * (dotL g a - dotL g b) := by
  induction g generalizing orig a b with
  | nil => simp [dotL]
  | cons x g ih =>
    cases orig with
    | nil =>
      rw [List.length_eq_zero_iff.1 la, List.length_eq_zero_iff.1 lb]
      simp [dotL, addPositionsWithMultiplier, vsub]
    | cons o orig =>
      cases a with
      | nil => simp at la
      | cons a as =>
        cases b with
        | nil => simp at lb
        | cons b bs =>
          have := ih orig as bs (by simpa using la) (by simpa using lb)
          simp only [vsub, addPositionsWithMultiplier, List.zipWith_cons_cons, dotL] at this ⊢
          rw [this]; ring

/-- the difference of the steps with and without the function has a non-negative product with the value
of the function -/
theorem nullspace_along (s : IkSolver ℝ) (ref w : List ℝ) (f : List ℝ → Except String (List ℝ))
    (hf : createReferencePositionsNullspaceFunction ref w = .ok f) (mult : 0 ≤ s.jacobianMultiplier)
    (c : Constraints) (ign : List Nat)
    (jac : Mat ℝ) (err orig g ps ps0 : List ℝ)
    (lref : ref.length = orig.length) (hg : f orig = .ok g)
    (srt : ign.Pairwise (· < ·)) (lt : ∀ j ∈ ign, j < orig.length)
    (lj : jac.length = orig.length) (hj : ∀ col ∈ jac, col.length = 6)
    (hP : ∀ col ∈ s.la.pinv (reducedJac (defineOperationalSpace c) ign jac),
      col.length = orig.length - ign.length)
    (lP : (s.la.pinv (reducedJac (defineOperationalSpace c) ign jac)).length =
      countTrue (defineOperationalSpace c))
    (pen : toMat (countTrue (defineOperationalSpace c)) (orig.length - ign.length)
        (reducedJac (defineOperationalSpace c) ign jac) *
      toMat (orig.length - ign.length) (countTrue (defineOperationalSpace c))
        (s.la.pinv (reducedJac (defineOperationalSpace c) ign jac)) *
      toMat (countTrue (defineOperationalSpace c)) (orig.length - ign.length)
        (reducedJac (defineOperationalSpace c) ign jac) =
      toMat (countTrue (defineOperationalSpace c)) (orig.length - ign.length)
        (reducedJac (defineOperationalSpace c) ign jac))
    (sym : (toMat (orig.length - ign.length) (countTrue (defineOperationalSpace c))
        (s.la.pinv (reducedJac (defineOperationalSpace c) ign jac)) *
      toMat (countTrue (defineOperationalSpace c)) (orig.length - ign.length)
        (reducedJac (defineOperationalSpace c) ign jac)).IsSymm)
    (svd : s.la.svdSolve (reducedJac (defineOperationalSpace c) ign jac) err =
      matVec (orig.length - ign.length)
        (s.la.pinv (reducedJac (defineOperationalSpace c) ign jac)) err)
    (e : nextPositions (s.setNullspaceFunction f) (defineOperationalSpace c) ign orig.length jac err
      orig = .ok (.ok ps))
    (e0 : nextPositions s.clearNullspaceFunction (defineOperationalSpace c) ign orig.length jac err
      orig = .ok (.ok ps0)) :
    0 ≤ dotL g (vsub ps ps0) := by
  generalize hops : defineOperationalSpace c = ops at *
  have ho : ops.length = 6 := by rw [← hops]; rfl
  have lg : g.length = orig.length := by
    rw [createReferencePositionsNullspaceFunction] at hf
    split at hf
    · cases hf
      rw [referenceNullspace, if_neg (by omega)] at hg
      cases hg
      simp; omega
    · cases hf
  have rr : removeRows ops 0 0 jac = .ok (jac.map (selectFlags ops)) := by
    rw [removeRows_eq ops 0 0 jac (Nat.le_refl _) (by intro col hc; rw [hj col hc, ho])]
    simp
  have ri : removeIndices ign 0 (jac.map (selectFlags ops)) = .ok (reducedJac ops ign jac) := by
    rw [removeIndices_ok ign 0 _ srt (by simp) (by simpa [lj] using lt)]
    simp [reducedJac, dropIdx_eq]
  have rg : removeIndices ign 0 g = .ok (dropIdx ign g) := by
    rw [removeIndices_ok ign 0 _ srt (by simp) (by simpa [lg] using lt)]
    simp [dropIdx_eq]
  have lJ : (reducedJac ops ign jac).length = orig.length - ign.length := by
    have := removeIndices_length _ _ _ _ ri
    simp only [List.length_map, lj] at this; omega
  have il : ign.length ≤ orig.length := by
    have := removeIndices_length _ _ _ _ ri
    simp only [List.length_map, lj] at this; omega
  have lg' : (dropIdx ign g).length = orig.length - ign.length := by
    have := removeIndices_length _ _ _ _ rg
    omega
  have hJ : ∀ col ∈ reducedJac ops ign jac, col.length = countTrue ops := by
    intro col hc
    have := dropFrom_subset 0 ign _ col hc
    obtain ⟨x, hx, rfl⟩ := List.mem_map.1 this
    exact selectFlags_length ops x (by rw [hj x hx, ho])
  have fin : ∀ ys zs : List ℝ, ys.length = orig.length - ign.length →
      insertZeros ign ys = .ok zs → zs.length = orig.length ∧ dotL g zs = toVec _ (dropIdx ign g) ⬝ᵥ
        toVec (orig.length - ign.length) ys := by
    intro ys zs ly ez
    obtain ⟨zs', e', d, l, z, -⟩ := insertZeros_ok ign ys srt (fun j hj => by
      have := lt j hj; omega)
    rw [ez] at e'; cases e'
    refine ⟨by omega, ?_⟩
    rw [dotL_drop ign g zs z, d, dotL_toVec _ _ _ lg' ly]
  simp only [nextPositions, rr, ri, Bind.bind, Except.bind, IkSolver.clearNullspaceFunction,
    IkSolver.setNullspaceFunction, hg, rg] at e e0
  by_cases gt : orig.length - ign.length > countTrue ops
  · rw [if_pos gt] at e e0
    by_cases z : countTrue ops = 0
    · rw [if_pos z] at e; cases e
    rw [if_neg z] at e e0
    rw [if_neg (not_not.2 lg')] at e
    rcases h0 : insertZeros ign (s.la.svdSolve (reducedJac ops ign jac) err) with m | zs0
    · rw [h0] at e0; cases e0
    rw [h0] at e0
    have e0 : addPositionsWithMultiplier s.jacobianMultiplier orig zs0 = ps0 := by
      simpa using e0
    rcases h1 : insertZeros ign (nullspaceStep (orig.length - ign.length)
      (s.la.pinv (reducedJac ops ign jac)) (reducedJac ops ign jac) err (dropIdx ign g)) with m | zs
    · rw [h1] at e; cases e
    rw [h1] at e
    have e : addPositionsWithMultiplier s.jacobianMultiplier orig zs = ps := by simpa using e
    obtain ⟨l0, d0⟩ := fin _ zs0 (by rw [svd]; exact matVec_length _ _ _ hP) h0
    obtain ⟨l1, d1⟩ := fin _ zs (nullspaceStep_effect (countTrue ops) _ _ _ err _ hJ lJ hP lP lg' pen).1 h1
    rw [← e, ← e0, dotL_add _ _ _ _ _ l1 l0, d0, d1, svd,
      nullspaceStep_toVec (countTrue ops) _ _ _ err _ hJ lJ hP lP lg', dotProduct_add, add_sub_cancel_left]
    refine mul_nonneg mult ?_
    generalize toVec (orig.length - ign.length) (dropIdx ign g) = v
    generalize hN : (1 - toMat (orig.length - ign.length) (countTrue ops)
      (s.la.pinv (reducedJac ops ign jac)) * toMat (countTrue ops) (orig.length - ign.length)
        (reducedJac ops ign jac)) = N
    have ns : Nᵀ = N := by
      rw [← hN, Matrix.transpose_sub, sym.eq, Matrix.transpose_one]
    have ni : N * N = N := by
      rw [← hN, Matrix.mul_sub, Matrix.mul_one, Matrix.sub_mul, Matrix.one_mul, Matrix.mul_assoc,
        ← Matrix.mul_assoc (toMat (countTrue ops) _ _), pen, sub_self, sub_zero]
    have : v ⬝ᵥ N *ᵥ v = (N *ᵥ v) ⬝ᵥ (N *ᵥ v) := by
      conv_lhs => rw [← ni, ← Matrix.mulVec_mulVec, Matrix.dotProduct_mulVec, ← Matrix.mulVec_transpose, ns]
    rw [this]
    exact Finset.sum_nonneg fun i _ => mul_self_nonneg _
  · rw [if_neg gt] at e e0
    rcases hl : s.la.lu (reducedJac ops ign jac) err with _ | x
    · rw [hl] at e; cases e
    · rw [hl] at e e0
      have e : addPositionsWithMultiplier s.jacobianMultiplier orig x = ps := by simpa using e
      have e0 : addPositionsWithMultiplier s.jacobianMultiplier orig x = ps0 := by simpa using e0
      rw [← e, ← e0]
      have : ∀ (g l : List ℝ), dotL g (vsub l l) = 0 := by
        intro g
        induction g with
        | nil => intro l; simp [dotL]
        | cons x g ih =>
          intro l
          cases l with
          | nil => simp [dotL, vsub]
          | cons y l =>
            have := ih l
            simp only [vsub, List.zipWith_cons_cons, dotL, sub_self, mul_zero, zero_add] at this ⊢
            exact this
      rw [this]

theorem refCost_deriv (ref w q v : List ℝ) (l : ref.length = w.length) (lq : ref.length = q.length) :
    ∀ f g, createReferencePositionsNullspaceFunction ref w = .ok f → f q = .ok g →
      HasDerivAt (fun t => refCost ref w (lineL q v t)) (dotL g v) 0 := by
  intro f g hf hg
  rw [createReferencePositionsNullspaceFunction, if_pos l] at hf
  cases hf
  rw [referenceNullspace, if_neg (by omega)] at hg
  cases hg
  induction ref generalizing w q v with
  | nil =>
    rw [List.length_eq_zero_iff.1 l.symm]
    simp only [refCost, List.zipWith_nil_left, dotL]
    exact hasDerivAt_const _ _
  | cons r ref ih =>
    cases w with
    | nil => simp at l
    | cons w ws =>
      cases q with
      | nil => simp at lq
      | cons q qs =>
        cases v with
        | nil =>
          simp only [lineL, List.zipWith_nil_right, refCost, dotL]
          exact hasDerivAt_const _ _
        | cons v vs =>
          have := ih ws qs vs (by simpa using l) (by simpa using lq)
          simp only [lineL, List.zipWith_cons_cons, refCost, dotL] at this ⊢
          refine HasDerivAt.add ?_ this
          have h1 : HasDerivAt (fun t : ℝ => q + t * v - r) v 0 := by
            simpa using (((hasDerivAt_id (0 : ℝ)).mul_const v).const_add q).sub_const r
          have h2 := ((h1.pow 2).const_mul w).const_mul (1 / 2)
          refine h2.congr_deriv ?_
          simp; ring

/-- the cost lies above its tangent -/
theorem refCost_tangent (ref w q v : List ℝ) (l : ref.length = w.length) (lq : ref.length = q.length)
    (lv : v.length = q.length) (pos : ∀ x ∈ w, 0 ≤ x) :
    ∀ f g, createReferencePositionsNullspaceFunction ref w = .ok f → f q = .ok g →
      refCost ref w q + dotL g v ≤ refCost ref w (lineL q v 1) := by
  intro f g hf hg
  rw [createReferencePositionsNullspaceFunction, if_pos l] at hf
  cases hf
  rw [referenceNullspace, if_neg (by omega)] at hg
  cases hg
  induction ref generalizing w q v with
  | nil => simp [refCost, dotL]
  | cons r ref ih =>
    cases w with
    | nil => simp at l
    | cons w ws =>
      cases q with
      | nil => simp at lq
      | cons q qs =>
        cases v with
        | nil => simp at lv
        | cons v vs =>
          have := ih ws qs vs (by simpa using l) (by simpa using lq) (by simpa using lv)
            fun x hx => pos x (by simp [hx])
          simp only [lineL, List.zipWith_cons_cons, refCost, dotL] at this ⊢
          have hw := pos w (by simp)
          nlinarith [mul_nonneg hw (mul_self_nonneg v)]

/-- **C51.**  The step made with the function of `ref` and `w` never brings the weighted squared
distance to the references down compared with the step without it: if the matrix `P J` of the pseudo
inverse is symmetric, the derivative of `½ ∑ wᵢ (qᵢ - refᵢ)²` in the direction of the difference of the two
steps is not negative, and with non-negative weights neither is its change when moving by the
difference. -/
theorem C51_away (s : IkSolver ℝ) (ref w : List ℝ) (f : List ℝ → Except String (List ℝ))
    (hf : createReferencePositionsNullspaceFunction ref w = .ok f) (mult : 0 ≤ s.jacobianMultiplier)
    (c : Constraints) (ign : List Nat)
    (jac : Mat ℝ) (err orig g ps ps0 : List ℝ)
    (lref : ref.length = orig.length) (hg : f orig = .ok g)
    (srt : ign.Pairwise (· < ·)) (lt : ∀ j ∈ ign, j < orig.length)
    (lj : jac.length = orig.length) (hj : ∀ col ∈ jac, col.length = 6)
    (hP : ∀ col ∈ s.la.pinv (reducedJac (defineOperationalSpace c) ign jac),
      col.length = orig.length - ign.length)
    (lP : (s.la.pinv (reducedJac (defineOperationalSpace c) ign jac)).length =
      countTrue (defineOperationalSpace c))
    (pen : toMat (countTrue (defineOperationalSpace c)) (orig.length - ign.length)
        (reducedJac (defineOperationalSpace c) ign jac) *
      toMat (orig.length - ign.length) (countTrue (defineOperationalSpace c))
        (s.la.pinv (reducedJac (defineOperationalSpace c) ign jac)) *
      toMat (countTrue (defineOperationalSpace c)) (orig.length - ign.length)
        (reducedJac (defineOperationalSpace c) ign jac) =
      toMat (countTrue (defineOperationalSpace c)) (orig.length - ign.length)
        (reducedJac (defineOperationalSpace c) ign jac))
    (sym : (toMat (orig.length - ign.length) (countTrue (defineOperationalSpace c))
        (s.la.pinv (reducedJac (defineOperationalSpace c) ign jac)) *
      toMat (countTrue (defineOperationalSpace c)) (orig.length - ign.length)
        (reducedJac (defineOperationalSpace c) ign jac)).IsSymm)
    (svd : s.la.svdSolve (reducedJac (defineOperationalSpace c) ign jac) err =
      matVec (orig.length - ign.length)
        (s.la.pinv (reducedJac (defineOperationalSpace c) ign jac)) err)
    (e : nextPositions (s.setNullspaceFunction f) (defineOperationalSpace c) ign orig.length jac err
      orig = .ok (.ok ps))
    (e0 : nextPositions s.clearNullspaceFunction (defineOperationalSpace c) ign orig.length jac err
      orig = .ok (.ok ps0)) :
    (∃ D, 0 ≤ D ∧ HasDerivAt (fun t => refCost ref w (lineL orig (vsub ps ps0) t)) D 0) ∧
    (ps.length = orig.length → ps0.length = orig.length → (∀ x ∈ w, 0 ≤ x) →
      refCost ref w orig ≤ refCost ref w (lineL orig (vsub ps ps0) 1)) := by
  have nn := nullspace_along s ref w f hf mult c ign jac err orig g ps ps0 lref hg srt lt lj hj hP lP pen sym
    svd e e0
  have l : ref.length = w.length := by
    by_contra c
    rw [createReferencePositionsNullspaceFunction, if_neg c] at hf
    cases hf
  refine ⟨⟨_, nn, refCost_deriv ref w orig _ l lref f g hf hg⟩, fun l1 l2 pos => ?_⟩
  have := refCost_tangent ref w orig (vsub ps ps0) l lref (by simp [vsub, l1, l2]) pos f g hf hg
  linarith

/-- two prismatic joints along x with references (0, 0) and weights (1, 0), at (1, 0) with the target
reached: the squared distance to the references is increased, from 1 to 9/4 -/
example : ∃ f, createReferencePositionsNullspaceFunction [0, 0] [1, 0] = .ok f ∧
    nextPositions (twoSliders.setNullspaceFunction f) [true, false, false, false, false, false] [] 2
      [[1, 0, 0, 0, 0, 0], [1, 0, 0, 0, 0, 0]] [0] [1, 0] = .ok (.ok [3 / 2, -1 / 2]) ∧
    nextPositions twoSliders.clearNullspaceFunction [true, false, false, false, false, false] [] 2
      [[1, 0, 0, 0, 0, 0], [1, 0, 0, 0, 0, 0]] [0] [1, 0] = .ok (.ok [1, 0]) ∧
    refCost [0, 0] [1, 0] [1, 0] < refCost [0, 0] [1, 0] [3 / 2, -1 / 2] := by
  refine ⟨_, by rw [createReferencePositionsNullspaceFunction, if_pos (by rfl)], ?_, ?_, ?_⟩
  · simp [nextPositions, countTrue, removeRows, removeRow, Bind.bind, Except.bind, referenceNullspace,
      removeIndices, insertZeros, twoSliders, IkSolver.new, IkSolver.setNullspaceFunction, pinv12,
      nullspaceStep, matVec, matMul, matSub, matOne, vadd, vsub, addPositionsWithMultiplier,
      List.range_succ]
    norm_num
  · simp [nextPositions, countTrue, removeRows, removeRow, Bind.bind, Except.bind,
      removeIndices, insertZeros, twoSliders, IkSolver.new, IkSolver.setNullspaceFunction,
      IkSolver.clearNullspaceFunction, pinv12, matVec, vadd, addPositionsWithMultiplier]
  · simp [refCost]; norm_num

end
end K
