import Verif.Lemmas.ScaledCalls
import Verif.Props.Frame
/-!
# C89: the units of length, mass and time do not matter
-/

set_option linter.unusedSectionVars false

namespace K
open Prog
variable {α β : Type} {U : Units}

noncomputable section

namespace Units

/-! ## lists with factors -/

theorem list_eq_zip : ∀ {ks xs : List ℝ}, xs.length ≤ ks.length → list ks xs = List.zipWith (fun k x => x * k) ks xs
  | [], [], _ => rfl
  | _ :: _, [], _ => rfl
  | k :: ks, x :: xs, h => by
    simp only [list, List.zipWith_cons_cons]
    rw [list_eq_zip (by simpa using h)]
  | [], _ :: _, h => by simp at h

theorem list_const {l : ℝ} : ∀ {ks xs : List ℝ}, (∀ k ∈ ks, k = l) → xs.length ≤ ks.length →
    list ks xs = xs.map (· * l)
  | [], [], _, _ => rfl
  | _ :: _, [], _, _ => rfl
  | k :: ks, x :: xs, u, h => by
    simp only [list, List.map_cons]
    rw [list_const (fun k hk => u k (List.mem_cons_of_mem _ hk)) (by simpa using h), u k (by simp)]
  | [], _ :: _, _, h => by simp at h

theorem list_inv {ns : List NodeId} : ∀ {xs : List ℝ}, list (ns.map fun n => (U.coord n)⁻¹) (list (ns.map U.coord) xs) = xs := by
  induction ns with
  | nil => intro xs; rfl
  | cons n ns ih =>
    intro xs
    cases xs with
    | nil => rfl
    | cons x xs =>
      simp only [List.map_cons, list, ih]
      rw [mul_assoc, mul_inv_cancel₀ (U.coord_pos n).ne', mul_one]

theorem selectFlags_zip {A B C : Type} (f : A → B → C) : ∀ (ops : List Bool) (as : List A) (bs : List B),
    as.length = bs.length → selectFlags ops (List.zipWith f as bs) = List.zipWith f (selectFlags ops as) (selectFlags ops bs)
  | [], _, _, _ => by simp [selectFlags]
  | b :: _, [], [], _ => by cases b <;> simp [selectFlags]
  | _ :: _, [], _ :: _, h => by simp at h
  | _ :: _, _ :: _, [], h => by simp at h
  | true :: ops, a :: as, b :: bs, h => by
    simp only [List.zipWith_cons_cons, selectFlags]
    rw [selectFlags_zip f ops as bs (by simpa using h)]
  | false :: ops, a :: as, b :: bs, h => by
    simp only [List.zipWith_cons_cons, selectFlags]
    rw [selectFlags_zip f ops as bs (by simpa using h)]

theorem add_list (m : ℝ) : ∀ (ks xs ds : List ℝ), xs.length ≤ ks.length →
    addPositionsWithMultiplier m (list ks xs) (list ks ds) = list ks (addPositionsWithMultiplier m xs ds)
  | [], [], ds, _ => rfl
  | _ :: _, [], ds, _ => rfl
  | k :: ks, x :: xs, [], _ => rfl
  | k :: ks, x :: xs, d :: ds, h => by
    have := add_list m ks xs ds (by simpa using h)
    simp only [addPositionsWithMultiplier, list, List.zipWith_cons_cons] at this ⊢
    rw [this]
    congr 1
    ring
  | [], _ :: _, _, h => by simp at h

theorem add_const (m l : ℝ) : ∀ (ks xs ds : List ℝ), (∀ k ∈ ks, k = l) → xs.length ≤ ks.length →
    addPositionsWithMultiplier m (list ks xs) (ds.map (· * l)) = list ks (addPositionsWithMultiplier m xs ds)
  | [], [], ds, _, _ => rfl
  | _ :: _, [], ds, _, _ => rfl
  | k :: ks, x :: xs, [], _, _ => rfl
  | k :: ks, x :: xs, d :: ds, u, h => by
    have := add_const m l ks xs ds (fun k hk => u k (List.mem_cons_of_mem _ hk)) (by simpa using h)
    simp only [addPositionsWithMultiplier, list, List.zipWith_cons_cons, List.map_cons] at this ⊢
    rw [this, u k (by simp)]
    congr 1
    ring
  | [], _ :: _, _, _, h => by simp at h

theorem insertZeros_scale (l : ℝ) : ∀ (is : List Nat) (xs : List ℝ),
    insertZeros is (xs.map (· * l)) = (insertZeros is xs).map (List.map (· * l))
  | [], _ => rfl
  | i :: is, xs => by
    simp only [insertZeros, List.length_map]
    split
    · have : (xs.map (· * l)).insertIdx i 0 = (xs.insertIdx i 0).map (· * l) := by
        rw [List.map_insertIdx, zero_mul]
      rw [this]
      exact insertZeros_scale l is _
    · rfl

theorem vadd_scale (l : ℝ) (a b : List ℝ) : vadd (a.map (· * l)) (b.map (· * l)) = (vadd a b).map (· * l) := by
  simp only [vadd, List.zipWith_map, List.map_zipWith, ← add_mul]

theorem matVec_scale (l : ℝ) (n : Nat) (m : Mat ℝ) (v : List ℝ) :
    matVec n m (v.map (· * l)) = (matVec n m v).map (· * l) := by
  unfold matVec
  have z : List.replicate n (0 : ℝ) = (List.replicate n (0 : ℝ)).map (· * l) := by simp
  rw [z]
  suffices ∀ (cs : Mat ℝ) (a : List ℝ), (cs.map (List.map (· * l))).foldl vadd (a.map (· * l)) =
      (cs.foldl vadd a).map (· * l) by
    have e : List.zipWith (fun col x => List.map (fun a => a * x) col) m (v.map (· * l)) =
        (List.zipWith (fun col x => List.map (fun a => a * x) col) m v).map (List.map (· * l)) := by
      rw [List.zipWith_map_right, List.map_zipWith]
      congr 1
      funext col x
      rw [List.map_map]
      exact List.map_congr_left fun a _ => by simp only [Function.comp]; ring
    have h := this (List.zipWith (fun col x => List.map (fun a => a * x) col) m v) (List.replicate n 0)
    rw [← e] at h
    rw [h, ← z]
  intro cs
  induction cs with
  | nil => intro a; rfl
  | cons c cs ih =>
    intro a
    simp only [List.map_cons, List.foldl_cons]
    rw [vadd_scale, ih]

/-- whether a removal succeeds depends on the number of elements -/
theorem removeIndices_same {A B : Type} (is : List Nat) (i : Nat) (xs : List A) (ys : List B) (e : xs.length = ys.length) :
    (∃ m, removeIndices is i xs = .error m ∧ removeIndices is i ys = .error m) ∨
      ∃ a b, removeIndices is i xs = .ok a ∧ removeIndices is i ys = .ok b := by
  have h : (removeIndices is i xs).map (List.map fun _ => ()) = (removeIndices is i ys).map (List.map fun _ => ()) := by
    rw [← removeIndices_map, ← removeIndices_map]
    congr 1
    simp [List.map_const', e]
  cases a : removeIndices is i xs with
  | error m =>
    cases b : removeIndices is i ys with
    | error m' =>
      rw [a, b] at h
      exact .inl ⟨m, rfl, by cases h; rfl⟩
    | ok y => rw [a, b] at h; cases h
  | ok x =>
    cases b : removeIndices is i ys with
    | error m' => rw [a, b] at h; cases h
    | ok y => exact .inr ⟨x, y, rfl, rfl⟩

/-! ## one step of inverse kinematics -/

theorem rows_pos : ∀ k ∈ U.rows, 0 < k := by
  intro k hk
  have := U.len_pos
  simp only [rows, List.mem_cons, List.not_mem_nil, or_false] at hk
  rcases hk with rfl | rfl | rfl | rfl | rfl | rfl <;> first | assumption | exact one_pos

theorem selectFlags_mem {A : Type} : ∀ (ops : List Bool) (xs : List A), ∀ a ∈ selectFlags ops xs, a ∈ xs
  | [], _, a, h => by simp [selectFlags] at h
  | b :: _, [], a, h => by cases b <;> simp [selectFlags] at h
  | true :: ops, x :: xs, a, h => by
    simp only [selectFlags, List.mem_cons] at h ⊢
    exact h.imp_right (selectFlags_mem ops xs a)
  | false :: ops, x :: xs, a, h => by
    simp only [selectFlags] at h
    exact List.mem_cons_of_mem _ (selectFlags_mem ops xs a h)

theorem zip_const {k l : ℝ} {r : List ℝ} (u : ∀ x ∈ r, x = k) {col : List ℝ} (e : col.length = r.length) :
    List.zipWith (fun k a => a * (k / l)) r col = col.map (· * (k / l)) := by
  induction r generalizing col with
  | nil =>
    cases col with
    | nil => rfl
    | cons _ _ => cases e
  | cons x r ih =>
    cases col with
    | nil => cases e
    | cons a col =>
      simp only [List.zipWith_cons_cons, List.map_cons]
      rw [ih (fun y hy => u y (List.mem_cons_of_mem _ hy)) (by simpa using e), u x (by simp)]

theorem nextPositions {s : IkSolver ℝ} {c : Chain} {cs : Constraints} (F : U.SolveFits s c cs) {ign : List Nat}
    (hi : ign.length = cs.ignoredJointNames.length)
    (enough : countTrue (defineOperationalSpace cs) ≤ c.dof - ign.length) {jac : Mat ℝ}
    (lj : jac.length = c.movableNodes.length) (l6 : ∀ col ∈ jac, col.length = 6) {full : List ℝ} (lf : full.length = 6)
    {orig : List ℝ} (lo : orig.length = c.movableNodes.length) :
    K.nextPositions (U.solver c s) (defineOperationalSpace cs) ign c.dof (U.matrix c jac)
        (selectFlags (defineOperationalSpace cs) (list U.rows full)) (U.coords c orig) =
      (K.nextPositions s (defineOperationalSpace cs) ign c.dof jac (selectFlags (defineOperationalSpace cs) full) orig).map
        (Except.map (U.coords c)) := by
  have hd := F.dof
  obtain ⟨ops, hops⟩ : ∃ ops, ops = defineOperationalSpace cs := ⟨_, rfl⟩
  have lops : ops.length = 6 := by rw [hops]; rfl
  have kind := F.kind
  rw [← hops] at enough kind ⊢
  obtain ⟨r, hr⟩ : ∃ r, r = selectFlags ops U.rows := ⟨_, rfl⟩
  have lr : r.length = countTrue ops := by rw [hr]; exact selectFlags_length _ _ (by rw [lops]; rfl)
  have pr : ∀ k ∈ r, 0 < k := fun k hk => rows_pos k (selectFlags_mem ops _ k (hr ▸ hk))
  obtain ⟨b, hb⟩ : ∃ b, b = selectFlags ops full := ⟨_, rfl⟩
  have lb : b.length = countTrue ops := by rw [hb]; exact selectFlags_length _ _ (by rw [lops, lf])
  have eb : selectFlags ops (list U.rows full) = list r b := by
    rw [list_eq_zip (by rw [lf]; exact Nat.le_refl _), selectFlags_zip _ _ _ _ (by rw [lf]; rfl), ← hr, ← hb,
      list_eq_zip (by rw [lb, lr])]
  have rr : ∀ m : Mat ℝ, (∀ col ∈ m, col.length = 6) → removeRows ops 0 0 m = .ok (m.map (selectFlags ops)) :=
    fun m hm => by
      rw [removeRows_eq _ _ _ _ (le_refl _) (by simpa [lops] using hm)]; simp
  have l6' : ∀ col ∈ U.matrix c jac, col.length = 6 := by
    intro col h
    obtain ⟨i, hi, rfl⟩ := List.getElem_of_mem h
    simp only [matrix, List.getElem_zipWith, column, List.length_zipWith]
    rw [l6 _ (List.getElem_mem _)]; rfl
  obtain ⟨J0, hJ0⟩ : ∃ J0, J0 = jac.map (selectFlags ops) := ⟨_, rfl⟩
  have lJ0 : J0.length = c.movableNodes.length := by rw [hJ0, List.length_map, lj]
  have cJ0 : ∀ col ∈ J0, col.length = b.length := by
    intro col h
    rw [hJ0] at h
    obtain ⟨x, hx, rfl⟩ := List.mem_map.1 h
    rw [lb]
    exact selectFlags_length _ _ (by rw [lops, l6 x hx])
  have eJ : (U.matrix c jac).map (selectFlags ops) =
      List.zipWith (fun l col => List.zipWith (fun k a => a * (k / l)) r col) (c.movableNodes.map U.coord) J0 := by
    rw [hJ0, matrix, List.map_zipWith, List.zipWith_map]
    refine List.ext_getElem (by simp) fun i h1 h2 => ?_
    simp only [List.getElem_zipWith, column]
    rw [selectFlags_zip _ _ _ _ (by rw [l6 _ (List.getElem_mem _)]; rfl), ← hr]
  unfold K.nextPositions
  rw [rr _ l6, rr _ l6', eb, eJ, ← hJ0, ← hb]
  simp only [Bind.bind, Except.bind]
  have ms : (U.solver c s).jacobianMultiplier = s.jacobianMultiplier := rfl
  have la : (U.solver c s).la = s.la := rfl
  rw [ms, la]
  rcases kind with ⟨sq, ni⟩ | ⟨⟨l, ul⟩, kd⟩
  · -- as many equations as joints
    have : ign = [] := List.eq_nil_of_length_eq_zero (by rw [hi, ni]; rfl)
    subst this
    simp only [removeIndices, List.length_nil, Nat.sub_zero]
    rw [if_neg (by omega), if_neg (by omega),
      F.la.lu r (c.movableNodes.map U.coord) J0 b pr (fun l hl => by
        obtain ⟨n, -, rfl⟩ := List.mem_map.1 hl; exact U.coord_pos n) (by omega)
        (by rw [List.length_map]; omega) (by omega) cJ0]
    cases s.la.lu J0 b with
    | none => rfl
    | some x =>
      simp only [Option.map_some, Except.map]
      rw [coords, add_list _ _ _ _ (by rw [List.length_map]; omega)]
      rfl
  · -- joints of one kind
    have uc : ∀ k ∈ c.movableNodes.map U.coord, k = l := fun k hk => by
      obtain ⟨n, hn, rfl⟩ := List.mem_map.1 hk; exact ul n hn
    have eJ' : List.zipWith (fun l col => List.zipWith (fun k a => a * (k / l)) r col) (c.movableNodes.map U.coord) J0 =
        J0.map fun col => List.zipWith (fun k a => a * (k / l)) r col := by
      refine List.ext_getElem (by simp [lJ0]) fun i h1 h2 => ?_
      simp only [List.getElem_zipWith, List.getElem_map]
      rw [ul _ (List.getElem_mem _)]
    rw [eJ', removeIndices_map]
    cases e3 : removeIndices ign 0 J0 with
    | error m => rfl
    | ok J =>
      have lJ := removeIndices_length _ _ _ _ e3
      have cJ : ∀ col ∈ J, col.length = b.length := fun col h => cJ0 col (removeIndices_subset _ _ _ _ e3 col h)
      simp only [Except.map]
      by_cases gt : c.dof - ign.length > countTrue ops
      · simp only [if_pos gt]
        by_cases z : countTrue ops = 0
        · simp only [if_pos z]
        · simp only [if_neg z]
          have hl : 0 < l := by
            match e : c.movableNodes with
            | [] => rw [e] at hd; simp only [List.length_nil] at hd; omega
            | n :: ns => rw [← ul n (by rw [e]; simp)]; exact U.coord_pos n
          obtain ⟨k, uk⟩ := kd.resolve_left (by omega)
          rw [← hr] at uk
          have hk : 0 < k := by
            match r, lr, uk, pr with
            | [], lr, _, _ => exact absurd lr.symm z
            | x :: _, _, uk, pr => rw [← uk x (by simp)]; exact pr x (by simp)
          have eK : (J.map fun col => List.zipWith (fun k a => a * (k / l)) r col) = J.map (List.map (· * (k / l))) :=
            List.map_congr_left fun col h => zip_const uk (by rw [cJ col h, lb, lr])
          have eB : list r b = b.map (· * k) := list_const uk (by omega)
          rw [eK, eB]
          have lt : b.length < J.length := by omega
          cases hf : s.nullspaceFunction with
          | none =>
            have hf' : (U.solver c s).nullspaceFunction = none := by simp only [solver, hf, Option.map_none]
            simp only [hf', F.la.svd k l J b hk hl lt cJ, insertZeros_scale]
            cases insertZeros ign (s.la.svdSolve J b) with
            | error m => rfl
            | ok dq =>
              simp only [Except.map]
              rw [coords, add_const _ l _ _ _ uc (by rw [List.length_map]; omega)]
              rfl
          | some f =>
            have hf' : (U.solver c s).nullspaceFunction = some fun xs =>
                (f (list (c.movableNodes.map fun n => (U.coord n)⁻¹) xs)).map (U.coords c) := by
              simp only [solver, hf, Option.map_some]
            simp only [hf', coords, list_inv]
            cases hs : f orig with
            | error m => rfl
            | ok sub =>
              simp only [Except.map, coords]
              by_cases ls : sub.length = c.movableNodes.length
              · rw [list_const (xs := sub) uc (by rw [List.length_map]; omega), removeIndices_map]
                cases e4 : removeIndices ign 0 sub with
                | error m => rfl
                | ok sub' =>
                  have l4 := removeIndices_length _ _ _ _ e4
                  have ne : ¬ sub'.length ≠ c.dof - ign.length := by omega
                  simp only [Except.map, List.length_map, if_neg ne]
                  have ns : nullspaceStep (c.dof - ign.length) (s.la.pinv (J.map (List.map (· * (k / l)))))
                      (J.map (List.map (· * (k / l)))) (b.map (· * k)) (sub'.map (· * l)) =
                      (nullspaceStep (c.dof - ign.length) (s.la.pinv J) J b sub').map (· * l) := by
                    have lj : c.dof - ign.length = J.length := by omega
                    have mm : matMul J.length (s.la.pinv (J.map (List.map (· * (k / l))))) (J.map (List.map (· * (k / l)))) =
                        matMul J.length (s.la.pinv J) J := ?_
                    · unfold nullspaceStep
                      rw [← vadd_scale, lj, F.la.pinv k l J b hk hl lt cJ, mm, matVec_scale l _ _ sub']
                    unfold matMul
                    rw [List.map_map]
                    refine List.map_congr_left fun col hc => ?_
                    have hcl := cJ col hc
                    have := F.la.pinv k l J (col.map (· * l⁻¹)) hk hl (by rw [List.length_map, hcl]; exact lt)
                      (fun x hx => by rw [List.length_map, hcl]; exact cJ x hx)
                    rw [List.map_map, matVec_scale, List.map_map] at this
                    have e5 : ((fun x => x * k) ∘ fun x => x * l⁻¹) = fun x => x * (k / l) := by
                      funext x; simp only [Function.comp]; rw [div_eq_mul_inv]; ring
                    have e6 : ((fun x => x * l) ∘ fun x => x * l⁻¹) = (id : ℝ → ℝ) := by
                      funext x; simp only [Function.comp, id]; rw [mul_assoc, inv_mul_cancel₀ hl.ne', mul_one]
                    rw [e5, e6, List.map_id] at this
                    exact this
                  rw [ns, insertZeros_scale]
                  cases insertZeros ign (nullspaceStep (c.dof - ign.length) (s.la.pinv J) J b sub') with
                  | error m => rfl
                  | ok dq =>
                    simp only [Except.map]
                    rw [add_const _ l _ _ _ uc (by rw [List.length_map]; omega)]
              · rcases removeIndices_same ign 0 sub (list (c.movableNodes.map U.coord) sub) (list_length _ _).symm with
                  ⟨m, a1, a2⟩ | ⟨x, y, a1, a2⟩
                · rw [a1, a2]
                · rw [a1, a2]
                  have l1 := removeIndices_length _ _ _ _ a1
                  have l2 := removeIndices_length _ _ _ _ a2
                  rw [list_length] at l2
                  simp only []
                  rw [if_pos (by omega), if_pos (by omega)]
      · simp only [if_neg gt]
        have e7 : (J.map fun col => List.zipWith (fun k a => a * (k / l)) r col) =
            List.zipWith (fun l col => List.zipWith (fun k a => a * (k / l)) r col) (List.replicate b.length l) J := by
          refine List.ext_getElem (by simp; omega) fun i h1 h2 => ?_
          simp
        have hl : ∀ x ∈ List.replicate b.length l, 0 < x := by
          intro x hx
          obtain ⟨h0, rfl⟩ := List.mem_replicate.1 hx
          match e : c.movableNodes with
          | [] => rw [e] at hd; simp only [List.length_nil] at hd; omega
          | n :: ns => rw [← ul n (by rw [e]; simp)]; exact U.coord_pos n
        rw [e7, F.la.lu r _ J b pr hl (by omega) (by simp) (by omega) cJ]
        cases ex : s.la.lu J b with
        | none => rfl
        | some x =>
          have lx := F.la.lu_length J b x (by omega) cJ ex
          simp only [Option.map_some]
          rw [list_const (ks := List.replicate b.length l) (fun k hk => (List.mem_replicate.1 hk).2)
            (by rw [List.length_replicate]; omega), coords, add_const _ l _ _ _ uc (by rw [List.length_map]; omega)]
          rfl

theorem poseDiff (a b : Iso ℝ) : calcPoseDiff (U.iso a) (U.iso b) = list U.rows (calcPoseDiff a b) := by
  simp only [calcPoseDiff, iso, ← scale_sub, rows, list, mul_one]
  rfl

theorem lenRot (cs : Constraints) {full : List ℝ} (lf : full.length = 6) :
    targetDiffToLenRotDiff (selectFlags (defineOperationalSpace cs) (list U.rows full)) (defineOperationalSpace cs) =
      ((targetDiffToLenRotDiff (selectFlags (defineOperationalSpace cs) full) (defineOperationalSpace cs)).1.scale U.len,
        (targetDiffToLenRotDiff (selectFlags (defineOperationalSpace cs) full) (defineOperationalSpace cs)).2) := by
  match full, lf with
  | [a, b, c, d, e, f], _ =>
    obtain ⟨px, py, pz, rx, ry, rz, ig⟩ := cs
    simp only [defineOperationalSpace, rows, list, mul_one]
    cases px <;> cases py <;> cases pz <;> cases rx <;> cases ry <;> cases rz <;>
      simp only [selectFlags, targetDiffToLenRotDiff, spreadFlags, toV3, V3.scale, List.take, List.drop, zero_mul]

theorem reached (s : IkSolver ℝ) (c : Chain) (p w : V3 ℝ) :
    K.reached (U.solver c s) (p.scale U.len) w = K.reached s p w := by
  simp only [K.reached, solver, norm_scale _ U.len_pos, lt_scale U.len_pos]

end Units

namespace Scaled
open K.Units

/-- what a step of inverse kinematics answers -/
inductive SameDiff (U : Units) (cs : Constraints) : Except (KError ℝ) (List ℝ) → Except (KError ℝ) (List ℝ) → Prop
  | ok (full : List ℝ) (l : full.length = 6) : SameDiff U cs (.ok (selectFlags (defineOperationalSpace cs) full))
      (.ok (selectFlags (defineOperationalSpace cs) (list U.rows full)))
  | error {e e' : KError ℝ} (h : U.SameError e e') : SameDiff U cs (.error e) (.error e')

theorem nextPositions_error {s : IkSolver ℝ} {ops ign dof} {jac : Mat ℝ} {err orig : List ℝ} {e : KError ℝ}
    (h : K.nextPositions s ops ign dof jac err orig = .ok (.error e)) : e = .inverseMatrix := by
  unfold K.nextPositions at h
  simp only [Bind.bind, Except.bind] at h
  split at h
  · cases h
  · split at h
    · cases h
    · split at h
      · split at h
        · cases h
        · split at h
          · split at h
            · cases h
            · split at h
              · cases h
              · split at h
                · cases h
                · split at h <;> cases h
          · split at h <;> cases h
      · split at h
        · cases h
        · cases h; rfl

theorem solveOneLoop {s : IkSolver ℝ} {c : Chain} {cs : Constraints} (F : U.SolveFits s c cs) {ign : List Nat}
    (hi : ign.length = cs.ignoredJointNames.length)
    (enough : countTrue (defineOperationalSpace cs) ≤ c.dof - ign.length) (target : Iso ℝ) :
    Scaled U (SameDiff U cs) (solveOneLoop s c target (defineOperationalSpace cs) ign)
      (solveOneLoop (U.solver c s) c (U.iso target) (defineOperationalSpace cs) ign) := by
  refine (jointPositions c).bind fun orig _ ⟨e1, lo⟩ => (endTransform c).bind fun t _ e2 =>
    (jacobian c).bind fun m _ ⟨e3, lm, l6⟩ => ?_
  subst e1 e2 e3
  have lf : (calcPoseDiff target t).length = 6 := rfl
  have h := Units.nextPositions F hi enough lm l6 lf lo
  rw [← poseDiff] at h
  show Scaled U _ (Prog.ofExcept (K.nextPositions s (defineOperationalSpace cs) ign c.dof m
      (selectFlags (defineOperationalSpace cs) (calcPoseDiff target t)) orig) >>= _)
    (Prog.ofExcept (K.nextPositions (U.solver c s) (defineOperationalSpace cs) ign c.dof (U.matrix c m)
      (selectFlags (defineOperationalSpace cs) (calcPoseDiff (U.iso target) (U.iso t))) (U.coords c orig)) >>= _)
  rw [h]
  cases e : K.nextPositions s (defineOperationalSpace cs) ign c.dof m
      (selectFlags (defineOperationalSpace cs) (calcPoseDiff target t)) orig with
  | error x => exact .panic x
  | ok y =>
    cases y with
    | error y =>
      cases nextPositions_error e
      exact .ret (.error .inverseMatrix)
    | ok xs =>
      refine (setJointPositionsClamped c xs).bind fun _ _ _ => (endTransform c).bind fun t' _ e4 => .ret ?_
      subst e4
      have := SameDiff.ok (U := U) (cs := cs) (calcPoseDiff target t') rfl
      rwa [← poseDiff] at this

theorem tryLoop {s : IkSolver ℝ} {c : Chain} {cs : Constraints} (F : U.SolveFits s c cs) {ign : List Nat}
    (hi : ign.length = cs.ignoredJointNames.length)
    (enough : countTrue (defineOperationalSpace cs) ≤ c.dof - ign.length) (target : Iso ℝ) (orig : List ℝ) (left : Nat)
    (last : Option (V3 ℝ × V3 ℝ)) :
    Scaled U U.SameResult (tryLoop s c target (defineOperationalSpace cs) ign orig left last)
      (tryLoop (U.solver c s) c (U.iso target) (defineOperationalSpace cs) ign (U.coords c orig) left
        (last.map fun d => (d.1.scale U.len, d.2))) := by
  induction left generalizing last with
  | zero =>
    refine (setJointPositions c orig).bind fun r r' h => ?_
    cases h with
    | error h => exact .ret (.error h)
    | ok =>
      refine (expect (A := fun d : V3 ℝ × V3 ℝ => (d.1.scale U.len, d.2)) last _).bind fun d _ e => ?_
      obtain ⟨-, rfl⟩ := e
      exact .ret (.error (.notConverged _ _ _))
  | succ left ih =>
    refine (solveOneLoop F hi enough target).bind fun r r' h => ?_
    cases h with
    | error h => exact .ret (.error h)
    | ok full lf =>
      simp only [lenRot cs lf, Units.reached]
      split
      · exact (jointPositions c).bind fun xs _ e => by
          obtain ⟨rfl, -⟩ := e
          exact (setJointPositionsClamped c xs).bind fun _ _ _ => .ret .ok
      · exact ih _

theorem jointIndex (name : String) (ns : List NodeId) :
    Scaled U Eq (jointIndex name ns : KProg ℝ _) (jointIndex name ns) := by
  induction ns with
  | nil => exact .ret rfl
  | cons n ns ih =>
    refine (joint n).bind fun j _ ⟨e, _⟩ => ?_
    subst e
    show Scaled U _ (if j.name == name then _ else _) (if j.name == name then _ else _)
    split
    · exact .ret rfl
    · exact ih.bind fun _ _ e => by subst e; exact .ret rfl

theorem ignoredIndices (c : Chain) (names : List String) :
    Scaled U (fun r r' => r' = r ∧ (∀ is, r = .ok is → is.length = names.length) ∧
        ∀ e, r = .error e → ∃ name, e = .invalidJointName name)
      (ignoredIndices c names : KProg ℝ _) (ignoredIndices c names) := by
  induction names with
  | nil => exact .ret ⟨rfl, fun is e => by cases e; rfl, fun e h => by cases h⟩
  | cons name names ih =>
    refine (jointIndex name c.movableNodes).bind fun o _ e => ?_
    subst e
    cases o with
    | none => exact .ret ⟨rfl, fun is e => by (cases e), fun e h => by cases h; exact ⟨name, rfl⟩⟩
    | some i =>
      refine ih.bind fun r r' ⟨e, h1, h2⟩ => ?_
      subst e
      cases r' with
      | error e => exact .ret ⟨rfl, fun is e => by (cases e), fun e' h => by cases h; exact h2 e rfl⟩
      | ok is =>
        exact .ret ⟨rfl, fun js e => by cases e; simp [h1 is rfl], fun e h => by cases h⟩

theorem solveInternal {s : IkSolver ℝ} {c : Chain} {cs : Constraints} (F : U.SolveFits s c cs) (target : Iso ℝ) :
    Scaled U U.SameResult (solveInternal s c target cs) (solveInternal (U.solver c s) c (U.iso target) cs) := by
  refine (jointPositions c).bind fun orig _ ⟨e1, _⟩ => ?_
  subst e1
  split
  · exact .panic _
  · simp only []
    split
    · exact .ret (.error (.precondition _ _))
    · rename_i h1 h2
      refine (ignoredIndices c cs.ignoredJointNames).bind fun r r' ⟨e, h3, h4⟩ => ?_
      subst e
      cases r' with
      | error e =>
        obtain ⟨name, rfl⟩ := h4 e rfl
        exact .ret (.error (.invalidJointName _))
      | ok is =>
        have li : (is.mergeSort fun a b => decide (a ≤ b)).length = cs.ignoredJointNames.length := by
          rw [List.length_mergeSort]; exact h3 is rfl
        exact tryLoop F li (by rw [li]; omega) target orig s.numMaxTry none

theorem solveWithConstraints {s : IkSolver ℝ} {c : Chain} {cs : Constraints} (F : U.SolveFits s c cs) (target : Iso ℝ) :
    Scaled U U.SameResult (solveWithConstraints s c target cs) (solveWithConstraints (U.solver c s) c (U.iso target) cs) := by
  refine (jointPositions c).bind fun orig _ ⟨e1, _⟩ => (solveInternal F target).bind fun r r' h => ?_
  subst e1
  cases h with
  | ok => exact .ret .ok
  | error h =>
    refine (setJointPositions c orig).bind fun r r' h' => ?_
    cases h' with
    | ok => exact .ret (.error h)
    | error h' => exact .ret (.error h')

theorem call (c : Call ℝ β) (F : c.FitsUnits U) : Scaled U (c.Answer U) c.prog (c.inUnits U).prog := by
  cases c with
  | newNode j => exact F.elim
  | cloneChain fuel c => exact F.elim
  | setParent n p => exact (setParent n p).imp fun _ _ e => e.symm
  | removeParent n p => exact (removeParent n p).imp fun _ _ e => e.symm
  | setMimicParent n p m => exact (setMimicParent n p m F).imp fun _ _ e => e.symm
  | setLink n l => exact (setLink n l).imp fun _ _ e => e.symm
  | setOrigin n t => exact (setOrigin n t).imp fun _ _ e => e.symm
  | setJointPosition n x => exact setJointPosition n x
  | setJointPositionClamped n x => exact (setJointPositionClamped n x).imp fun _ _ e => e.symm
  | setJointPositionUnchecked n x => exact (setJointPositionUnchecked n x).imp fun _ _ e => e.symm
  | joint n => exact (joint n).imp fun _ _ e => e.1
  | jointPosition n => exact jointPosition n
  | parent n => exact (parent n).imp fun _ _ e => e.symm
  | mimicParent n => exact (mimicParent n).imp fun _ _ e => e.symm
  | children n => exact (children n).imp fun _ _ e => e.symm
  | link n => exact link n
  | isRoot n => exact (isRoot n).imp fun _ _ e => e.symm
  | isEnd n => exact (isEnd n).imp fun _ _ e => e.symm
  | origin n => exact origin n
  | worldTransform n => exact worldTransform n
  | worldVelocity n => exact worldVelocity n
  | iterAncestors fuel n => exact (ancestors fuel (some n)).imp fun _ _ e => e.symm
  | iterDescendants fuel n => exact (descendants fuel [n]).imp fun _ _ e => e.symm
  | fromNodes ns => exact (fromNodes ns).imp fun _ _ e => e.symm
  | fromRoot fuel n => exact (fromRoot fuel n).imp fun _ _ e => e.symm
  | fromEnd fuel n => exact (fromEnd fuel n).imp fun _ _ e => e.symm
  | fromEndToRoot fuel e r => exact (fromEndToRoot fuel e r).imp fun _ _ e => e.symm
  | chainSetOrigin c t => exact (chainSetOrigin c t).imp fun _ _ e => e.symm
  | chainOrigin c => exact chainOrigin c
  | iterJoints c => exact iterJoints c
  | iterLinks c => exact iterLinks c
  | find c name => exact (find c name).imp fun _ _ e => e.symm
  | jointPositions c => exact jointPositions c
  | setJointPositions c xs => exact setJointPositions c xs
  | setJointPositionsClamped c xs => exact (setJointPositionsClamped c xs).imp fun _ _ e => e.symm
  | setJointPositionsUnchecked c xs => exact (setJointPositionsUnchecked c xs).imp fun _ _ e => e.symm
  | updateTransforms c => exact updateTransforms c
  | updateVelocities c => exact updateVelocities c
  | updateLinkTransforms c => exact (updateLinkTransforms c).imp fun _ _ e => e.symm
  | tryNew c => exact (tryNew c).imp fun _ _ e => e.symm
  | endTransform c => exact endTransform c
  | display fuel c => exact (display c fuel).imp fun _ _ e => e.symm
  | jacobian c => exact (jacobian c).imp fun _ _ e => ⟨e.1, e.2.1⟩
  | centerOfMass c => exact centerOfMass c
  | solve s c target cs => exact solveWithConstraints F target

theorem client {p q : Client ℝ α} (h : p.SameInUnits U q) : Scaled U Eq p.prog q.prog := by
  induction h with
  | done a => exact .ret rfl
  | call c k k' fits next ih => exact (call c fits).bind ih

/-- threads that do the same -/
inductive All (U : Units) : List (KProg ℝ α) → List (KProg ℝ α) → Prop
  | nil : All U [] []
  | cons {p q ps qs} (h : Scaled U Eq p q) (t : All U ps qs) : All U (p :: ps) (q :: qs)

theorem All.get {ps qs : List (KProg ℝ α)} (a : All U ps qs) (i : Nat) {p : KProg ℝ α} (e : ps[i]? = some p) :
    ∃ q, qs[i]? = some q ∧ Scaled U Eq p q := by
  induction a generalizing i with
  | nil => simp at e
  | cons h t ih =>
    cases i with
    | zero => simp at e; subst e; exact ⟨_, rfl, h⟩
    | succ i => exact ih i (by simpa using e)

theorem All.set {ps qs : List (KProg ℝ α)} (a : All U ps qs) (i : Nat) {p q : KProg ℝ α} (h : Scaled U Eq p q) :
    All U (ps.set i p) (qs.set i q) := by
  induction a generalizing i with
  | nil => exact .nil
  | cons h' t ih =>
    cases i with
    | zero => exact .cons h t
    | succ i => exact .cons h' (ih i)

theorem All.length {ps qs : List (KProg ℝ α)} (a : All U ps qs) : ps.length = qs.length := by
  induction a with
  | nil => rfl
  | cons _ _ ih => simp [ih]

end Scaled

/-! ## The theorems -/

/-- **C89.** The units of length, mass and time do not matter: a client that makes the same calls with all numbers in
other units, on the robot in the other units, has the same outcome - the same result, the same panic, the same lock it
waits for - and leaves the memory in the other units. -/
theorem C89_sequential {p q : Client ℝ α} (same : p.SameInUnits U q) (h : KHeap ℝ) (fits : ∀ n, U.Fits n (h.get n)) :
    run q.prog (U.heap h) = (run p.prog h).inUnits U := by
  have := (Scaled.client same).outcome h fits
  cases e : run p.prog h <;> cases e' : run q.prog (U.heap h) <;> rw [e, e'] at this <;>
    simp only [UnitOutcome] at this
  · obtain ⟨rfl, rfl, -⟩ := this; rfl
  · obtain ⟨rfl, rfl⟩ := this; rfl
  · obtain ⟨rfl, rfl⟩ := this; rfl
  · rfl

/-- **C89**, one call: in the other units it gives the same answer in the other units. -/
theorem C89_call (c : Call ℝ β) (h : KHeap ℝ) (fits : ∀ n, U.Fits n (h.get n)) (ok : c.FitsUnits U) :
    (∀ a g, run c.prog h = .ok a g → ∃ a', run (c.inUnits U).prog (U.heap h) = .ok a' (U.heap g) ∧ c.Answer U a a' ∧
      ∀ n, U.Fits n (g.get n)) ∧
    (∀ m g, run c.prog h = .panic m g → run (c.inUnits U).prog (U.heap h) = .panic m (U.heap g)) ∧
    (∀ n g, run c.prog h = .blocked n g → run (c.inUnits U).prog (U.heap h) = .blocked n (U.heap g)) ∧
    (run c.prog h = .diverged → run (c.inUnits U).prog (U.heap h) = .diverged) := by
  have := (Scaled.call c ok).outcome h fits
  refine ⟨fun a g x => ?_, fun m g x => ?_, fun n g x => ?_, fun x => ?_⟩ <;> rw [x] at this <;>
    cases e' : run (c.inUnits U).prog (U.heap h) <;> rw [e'] at this <;>
    simp only [UnitOutcome] at this
  · exact ⟨_, by rw [this.2.1], this.1, this.2.2⟩
  · rw [this.1, this.2]
  · rw [this.1, this.2]

/-- **C89**, threads: whatever threads can do - with any interleaving, nodes being freed at any moment - threads that
make the calls in the other units can do, with the same results and panics, and each waiting for the same lock. -/
theorem C89_threads (pq : List (Client ℝ α × Client ℝ α)) (same : ∀ x ∈ pq, x.1.SameInUnits U x.2) (h : KHeap ℝ)
    (fits : ∀ n, U.Fits n (h.get n)) (d : Config (NodeImpl ℝ) α) (st : DSteps ⟨h, pq.map fun x => x.1.prog⟩ d) :
    ∃ d', DSteps ⟨U.heap h, pq.map fun x => x.2.prog⟩ d' ∧ d'.heap = U.heap d.heap ∧
      (∀ (i : Nat) a, d.threads[i]? = some (Prog.ret a) → d'.threads[i]? = some (Prog.ret a)) ∧
      (∀ (i : Nat) m, d.threads[i]? = some (Prog.panic m) → d'.threads[i]? = some (Prog.panic m)) ∧
      ∀ (i : Nat) n k, d.threads[i]? = some (Prog.lock n k) → ∃ k, d'.threads[i]? = some (Prog.lock n k) := by
  suffices ∃ ts, DSteps ⟨U.heap h, pq.map fun x => x.2.prog⟩ ⟨U.heap d.heap, ts⟩ ∧ Scaled.All U d.threads ts ∧
      ∀ n, U.Fits n (d.heap.get n) by
    obtain ⟨ts, a, b, -⟩ := this
    refine ⟨_, a, rfl, fun i x e => ?_, fun i m e => ?_, fun i n k e => ?_⟩
    all_goals
      obtain ⟨q, e', s⟩ := b.get i e
      cases s
    · rename_i q; subst q; exact e'
    · exact e'
    · exact ⟨_, e'⟩
  induction st with
  | refl =>
    refine ⟨_, .refl _, ?_, fits⟩
    clear fits
    induction pq with
    | nil => exact .nil
    | cons x pq ih =>
      exact .cons (Scaled.client (same x (by simp))) (ih fun y hy => same y (List.mem_cons_of_mem _ hy))
  | @tail d e _ s ih =>
    obtain ⟨ts, a, b, f⟩ := ih
    cases s with
    | free F => exact ⟨ts, a.tail (by rw [U.heap_free]; exact DStep.free ⟨U.heap d.heap, ts⟩ F), b, f⟩
    | thread s =>
      cases s with
      | mk i p p' h' hi hs =>
        obtain ⟨q, e', s⟩ := b.get i hi
        obtain ⟨q', x, y, z⟩ := s.step _ _ f hs
        exact ⟨ts.set i q', a.tail (.thread (Step.mk ⟨U.heap d.heap, ts⟩ i q q' (U.heap h') e' x)), b.set i y, z⟩

end

end K
