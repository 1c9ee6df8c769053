import Verif.Lemmas.RecastCalls
import Verif.Lemmas.Idx
import Verif.Props.Units
/-!
# C91: where the zero of a joint is and in which direction it counts does not matter
-/

set_option linter.unusedSectionVars false

namespace K
open Prog
variable {α β : Type} {U : Coords}

noncomputable section

namespace Coords

/-! ## lists of coordinates -/

theorem list_back {ns : List NodeId} : ∀ {xs : List ℝ}, list U.back ns (list U.coord ns xs) = xs := by
  induction ns with
  | nil => intro xs; rfl
  | cons n ns ih =>
    intro xs
    cases xs with
    | nil => rfl
    | cons x xs => simp only [list, ih, back_coord]

theorem changes_eq (ns : List NodeId) (xs : List ℝ) :
    list (fun n x => U.sign n * x) ns xs = Units.list (ns.map U.sign) xs := by
  induction ns generalizing xs with
  | nil => rfl
  | cons n ns ih =>
    cases xs with
    | nil => rfl
    | cons x xs => simp only [list, List.map_cons, Units.list, ih]; rw [mul_comm]

theorem add_signs (m : ℝ) : ∀ (ns : List NodeId) (xs ds : List ℝ), xs.length ≤ ns.length →
    addPositionsWithMultiplier m (list U.coord ns xs) (Units.list (ns.map U.sign) ds) =
      list U.coord ns (addPositionsWithMultiplier m xs ds)
  | [], [], ds, _ => rfl
  | _ :: _, [], ds, _ => rfl
  | k :: ks, x :: xs, [], _ => rfl
  | k :: ks, x :: xs, d :: ds, h => by
    have := add_signs m ks xs ds (by simpa using h)
    simp only [addPositionsWithMultiplier, list, Units.list, List.map_cons, List.zipWith_cons_cons] at this ⊢
    rw [this]
    congr 1
    simp only [coord]
    ring
  | [], _ :: _, _, h => by simp at h

theorem dropFrom_zip {A B C : Type} (f : A → B → C) (is : List Nat) : ∀ (k : Nat) (as : List A) (bs : List B),
    as.length = bs.length → dropFrom k is (List.zipWith f as bs) = List.zipWith f (dropFrom k is as) (dropFrom k is bs)
  | _, [], [], _ => rfl
  | k, a :: as, b :: bs, h => by
    rw [List.zipWith_cons_cons, dropFrom_cons, dropFrom_cons, dropFrom_cons, dropFrom_zip f is (k + 1) as bs (by simpa using h)]
    split <;> rfl
  | _, [], _ :: _, h => by simp at h
  | _, _ :: _, [], h => by simp at h

theorem dropFrom_length {A B : Type} (is : List Nat) : ∀ (k : Nat) (as : List A) (bs : List B),
    as.length = bs.length → (dropFrom k is as).length = (dropFrom k is bs).length
  | _, [], [], _ => rfl
  | k, a :: as, b :: bs, h => by
    rw [dropFrom_cons, dropFrom_cons]
    have := dropFrom_length is (k + 1) as bs (by simpa using h)
    split
    · exact this
    · simp [this]
  | _, [], _ :: _, h => by simp at h
  | _, _ :: _, [], h => by simp at h

theorem dropFrom_mem {A : Type} (is : List Nat) : ∀ (k : Nat) (as : List A), ∀ a ∈ dropFrom k is as, a ∈ as
  | _, [], a, h => h
  | k, x :: as, a, h => by
    rw [dropFrom_cons] at h
    split at h
    · exact List.mem_cons_of_mem _ (dropFrom_mem is (k + 1) as a h)
    · rcases List.mem_cons.1 h with rfl | h
      · simp
      · exact List.mem_cons_of_mem _ (dropFrom_mem is (k + 1) as a h)

theorem dropFrom_inj {A : Type} (is : List Nat) : ∀ (k : Nat) (as bs : List A), as.length = bs.length →
    dropFrom k is as = dropFrom k is bs → (∀ j, k + j ∈ is → as[j]? = bs[j]?) → as = bs
  | _, [], [], _, _, _ => rfl
  | k, a :: as, b :: bs, h, e, at' => by
    have step : ∀ j, k + 1 + j ∈ is → as[j]? = bs[j]? := fun j hj => by
      have := at' (j + 1) (by rw [show k + (j + 1) = k + 1 + j by omega]; exact hj)
      simpa using this
    rw [dropFrom_cons, dropFrom_cons] at e
    by_cases hk : k ∈ is
    · rw [if_pos hk, if_pos hk] at e
      have h0 := at' 0 hk
      simp only [List.getElem?_cons_zero, Option.some.injEq] at h0
      rw [h0, dropFrom_inj is (k + 1) as bs (by simpa using h) e step]
    · rw [if_neg hk, if_neg hk] at e
      injection e with e1 e2
      rw [e1, dropFrom_inj is (k + 1) as bs (by simpa using h) e2 step]
  | _, [], _ :: _, h, _, _ => by simp at h
  | _, _ :: _, [], h, _, _ => by simp at h

theorem units_list_zip {ks xs : List ℝ} (h : ks.length = xs.length) :
    Units.list ks xs = List.zipWith (fun k x => x * k) ks xs := Units.list_eq_zip (by omega)

theorem insertZeros_signs {is : List Nat} (srt : is.Pairwise (· < ·)) (ks ys : List ℝ)
    (ly : ys.length = (dropFrom 0 is ks).length) (lk : ks.length = ys.length + is.length) (lt : ∀ j ∈ is, j < ks.length) :
    insertZeros is (Units.list (dropFrom 0 is ks) ys) = (insertZeros is ys).map (Units.list ks) := by
  obtain ⟨zs, e, d, l, z, -⟩ := insertZeros_ok is ys srt fun j hj => by have := lt j hj; omega
  obtain ⟨zs', e', d', l', z', -⟩ := insertZeros_ok is (Units.list (dropFrom 0 is ks) ys) srt fun j hj => by
    have := lt j hj; rw [Units.list_length]; omega
  rw [e, e']
  show Except.ok zs' = Except.ok (Units.list ks zs)
  congr 1
  rw [Units.list_length] at l'
  refine dropFrom_inj is 0 _ _ (by rw [Units.list_length, l, l']) ?_ fun j hj => ?_
  · rw [units_list_zip (xs := zs) (by omega), dropFrom_zip _ _ _ _ _ (by omega), ← dropIdx_eq, ← dropIdx_eq is zs, d, d',
      units_list_zip ly.symm]
  · rw [Nat.zero_add] at hj
    rw [z' j hj, units_list_zip (xs := zs) (by omega), List.getElem?_zipWith, z j hj,
      List.getElem?_eq_getElem (lt j hj)]
    simp

theorem selectFlags_map {A B : Type} (f : A → B) : ∀ (ops : List Bool) (xs : List A),
    selectFlags ops (xs.map f) = (selectFlags ops xs).map f
  | [], _ => by simp [selectFlags]
  | b :: _, [] => by cases b <;> simp [selectFlags]
  | true :: ops, x :: xs => by simp only [List.map_cons, selectFlags, selectFlags_map f ops xs]
  | false :: ops, x :: xs => by simp only [List.map_cons, selectFlags, selectFlags_map f ops xs]

/-! ## one step of inverse kinematics -/

/-- the columns, each with its sign -/
abbrev signed (ks : List ℝ) (J : Mat ℝ) : Mat ℝ := List.zipWith (fun k col => col.map (· * k)) ks J

theorem vadd_signs {ks a b : List ℝ} (la : a.length = ks.length) (lb : b.length = ks.length) :
    vadd (Units.list ks a) (Units.list ks b) = Units.list ks (vadd a b) := by
  have l : (vadd a b).length = ks.length := by simp [vadd, la, lb]
  rw [units_list_zip la.symm, units_list_zip lb.symm, units_list_zip l.symm]
  refine List.ext_getElem (by simp [vadd, la, lb]) fun i h1 h2 => ?_
  simp only [vadd, List.getElem_zipWith, add_mul]

theorem foldl_vadd_signs {ks : List ℝ} : ∀ (cs : Mat ℝ) (a : List ℝ), a.length = ks.length →
    (∀ c ∈ cs, c.length = ks.length) →
    (cs.map (Units.list ks)).foldl vadd (Units.list ks a) = Units.list ks (cs.foldl vadd a)
  | [], _, _, _ => rfl
  | c :: cs, a, la, lc => by
    have hc := lc c (by simp)
    simp only [List.map_cons, List.foldl_cons]
    rw [vadd_signs la hc]
    exact foldl_vadd_signs cs _ (by simp [vadd, la, hc]) fun x hx => lc x (List.mem_cons_of_mem _ hx)

theorem foldl_vadd_length {n : Nat} : ∀ (cs : Mat ℝ) (a : List ℝ), a.length = n →
    (∀ c ∈ cs, c.length = n) → (cs.foldl vadd a).length = n
  | [], _, la, _ => la
  | c :: cs, a, la, lc => by
    simp only [List.foldl_cons]
    exact foldl_vadd_length cs _ (by simp [vadd, la, lc c (by simp)]) fun x hx => lc x (List.mem_cons_of_mem _ hx)

theorem zeros_signs (ks : List ℝ) : Units.list ks (List.replicate ks.length 0) = List.replicate ks.length 0 := by
  rw [units_list_zip (by simp)]
  refine List.ext_getElem (by simp) fun i h1 h2 => by simp

/-- the step with a nullspace part: the signs go through -/
theorem nullspaceStep_signs {la : LinAlg ℝ} (hla : la.SignFree) {ks : List ℝ} (hk : ∀ k ∈ ks, k = 1 ∨ k = -1) {J : Mat ℝ}
    {n : Nat} (hn : J.length = n) (lk : ks.length = n) {b : List ℝ} (lt : b.length < n)
    (hJ : ∀ col ∈ J, col.length = b.length) {sub : List ℝ} (ls : sub.length = n) :
    nullspaceStep n (la.pinv (signed ks J)) (signed ks J) b (Units.list ks sub) =
        Units.list ks (nullspaceStep n (la.pinv J) J b sub) ∧
      (nullspaceStep n (la.pinv J) J b sub).length = n := by
  have p := hla.pinv ks J b hk (lk.trans hn.symm) (by omega) hJ
  have col : ∀ c ∈ J, matVec n (la.pinv (signed ks J)) c = Units.list ks (matVec n (la.pinv J) c) ∧
      (matVec n (la.pinv J) c).length = n := fun c hc => by
    have := hla.pinv ks J c hk (lk.trans hn.symm) (by rw [hJ c hc]; omega) fun x hx => by rw [hJ x hx, hJ c hc]
    rwa [hn] at this
  rw [hn] at p
  obtain ⟨p1, p2⟩ := p
  -- the columns that are summed
  have terms : List.zipWith (fun col x => col.map (· * x))
        (matSub (matOne n) (matMul n (la.pinv (signed ks J)) (signed ks J))) (Units.list ks sub) =
      (List.zipWith (fun col x => col.map (· * x)) (matSub (matOne n) (matMul n (la.pinv J) J)) sub).map
        (Units.list ks) := by
    rw [units_list_zip (by omega)]
    refine List.ext_getElem (by simp [matSub, matOne, matMul]; omega) fun i h1 h2 => ?_
    have hi : i < n := by
      have := h2
      simp [matSub, matOne, matMul] at this
      omega
    have hiJ : i < J.length := by omega
    have hik : i < ks.length := by omega
    have his : i < sub.length := by omega
    have hc := col J[i] (List.getElem_mem hiJ)
    have hsq : ks[i] * ks[i] = 1 := by
      rcases hk _ (List.getElem_mem hik) with h | h <;> rw [h] <;> norm_num
    simp only [matSub, matOne, matMul, List.getElem_zipWith, List.getElem_map, List.getElem_range]
    rw [Units.matVec_scale, hc.1]
    refine List.ext_getElem (by
      rw [Units.list_length]
      simp [vsub, Units.list_length]) fun r g1 g2 => ?_
    have hr : r < n := by
      have := g1
      simp [vsub, Units.list_length] at this
      omega
    have hrk : r < ks.length := by omega
    have hrv : r < (matVec n (la.pinv J) J[i]).length := by omega
    have u1 := units_list_zip (ks := ks) (xs := matVec n (la.pinv J) J[i]) (by omega)
    have u2 := units_list_zip (ks := ks) (xs := (vsub ((List.range n).map fun r => if r = i then (1 : ℝ) else 0)
        (matVec n (la.pinv J) J[i])).map (· * sub[i])) (by simp [vsub]; omega)
    simp only [vsub] at u2 ⊢
    simp only [u1, u2, List.getElem_map, List.getElem_zipWith, List.getElem_range]
    by_cases e : r = i
    · subst e
      simp only [if_true]
      linear_combination (-(matVec n (la.pinv J) J[r])[r] * ks[r] * sub[r]) * hsq
    · simp only [if_neg e]
      linear_combination (-(matVec n (la.pinv J) J[i])[r] * ks[r] * sub[i]) * hsq
  have lterms : ∀ c ∈ List.zipWith (fun col x => col.map (· * x)) (matSub (matOne n) (matMul n (la.pinv J) J)) sub,
      c.length = ks.length := by
    intro c hc
    obtain ⟨i, hi, rfl⟩ := List.getElem_of_mem hc
    have hiJ : i < J.length := by
      simp [matSub, matOne, matMul] at hi
      omega
    have := (col J[i] (List.getElem_mem hiJ)).2
    simp only [matSub, matOne, matMul, List.getElem_zipWith, List.getElem_map, List.getElem_range, List.length_map, vsub,
      List.length_zipWith, List.length_range, this]
    omega
  have m1 : matVec n (matSub (matOne n) (matMul n (la.pinv (signed ks J)) (signed ks J))) (Units.list ks sub) =
      Units.list ks (matVec n (matSub (matOne n) (matMul n (la.pinv J) J)) sub) := by
    unfold matVec
    have z := zeros_signs ks
    rw [lk] at z
    rw [terms, ← z, foldl_vadd_signs _ _ (by simp [lk]) lterms, z]
  have m2 : (matVec n (matSub (matOne n) (matMul n (la.pinv J) J)) sub).length = ks.length :=
    foldl_vadd_length _ _ (by simp [lk]) lterms
  unfold nullspaceStep
  rw [p1, m1, vadd_signs (by omega) m2]
  exact ⟨rfl, by simp [vadd, p2, m2, lk]⟩

theorem nextPositions {s : IkSolver ℝ} {c : Chain} {cs : Constraints} (F : SolveFits s c cs) {ign : List Nat}
    (hi : ign.length = cs.ignoredJointNames.length) (srt : ign.Pairwise (· < ·))
    (below : ∀ j ∈ ign, j < c.movableNodes.length)
    (enough : countTrue (defineOperationalSpace cs) ≤ c.dof - ign.length) {jac : Mat ℝ}
    (lj : jac.length = c.movableNodes.length) (l6 : ∀ col ∈ jac, col.length = 6) {full : List ℝ} (lf : full.length = 6)
    {orig : List ℝ} (lo : orig.length = c.movableNodes.length) :
    K.nextPositions (U.solver c s) (defineOperationalSpace cs) ign c.dof (U.matrix c jac)
        (selectFlags (defineOperationalSpace cs) full) (U.coords c orig) =
      (K.nextPositions s (defineOperationalSpace cs) ign c.dof jac (selectFlags (defineOperationalSpace cs) full) orig).map
        (Except.map (U.coords c)) := by
  have hd := F.dof
  have spread := F.spread
  obtain ⟨ops, hops⟩ : ∃ ops, ops = defineOperationalSpace cs := ⟨_, rfl⟩
  have lops : ops.length = 6 := by rw [hops]; rfl
  rw [← hops] at enough spread ⊢
  obtain ⟨b, hb⟩ : ∃ b, b = selectFlags ops full := ⟨_, rfl⟩
  have lb : b.length = countTrue ops := by rw [hb]; exact selectFlags_length _ _ (by rw [lops, lf])
  have rr : ∀ m : Mat ℝ, (∀ col ∈ m, col.length = 6) → removeRows ops 0 0 m = .ok (m.map (selectFlags ops)) :=
    fun m hm => by
      rw [removeRows_eq _ _ _ _ (le_refl _) (by simpa [lops] using hm)]; simp
  have l6' : ∀ col ∈ U.matrix c jac, col.length = 6 := by
    intro col h
    obtain ⟨i, hi, rfl⟩ := List.getElem_of_mem h
    simp only [matrix, List.getElem_zipWith, column, List.length_map]
    exact l6 _ (List.getElem_mem _)
  obtain ⟨J0, hJ0⟩ : ∃ J0, J0 = jac.map (selectFlags ops) := ⟨_, rfl⟩
  have lJ0 : J0.length = c.movableNodes.length := by rw [hJ0, List.length_map, lj]
  have cJ0 : ∀ col ∈ J0, col.length = b.length := by
    intro col h
    rw [hJ0] at h
    obtain ⟨x, hx, rfl⟩ := List.mem_map.1 h
    rw [lb]
    exact selectFlags_length _ _ (by rw [lops, l6 x hx])
  obtain ⟨ks, hks⟩ : ∃ ks, ks = c.movableNodes.map U.sign := ⟨_, rfl⟩
  have lks : ks.length = c.movableNodes.length := by rw [hks, List.length_map]
  have sks : ∀ k ∈ ks, k = 1 ∨ k = -1 := fun k hk => by
    rw [hks] at hk
    obtain ⟨n, -, rfl⟩ := List.mem_map.1 hk
    exact U.sign_sq n
  have eJ : (U.matrix c jac).map (selectFlags ops) = signed ks J0 := by
    rw [hJ0, hks, matrix, List.map_zipWith, signed, List.zipWith_map]
    refine List.ext_getElem (by simp) fun i h1 h2 => ?_
    simp only [List.getElem_zipWith, column, selectFlags_map]
  have rem : ∀ {A : Type} (xs : List A), xs.length = c.movableNodes.length →
      removeIndices ign 0 xs = .ok (dropFrom 0 ign xs) := fun xs lx => by
    have := removeIndices_ok ign 0 xs srt (fun _ _ => Nat.zero_le _) fun j hj => by
      have := below j hj; omega
    simpa using this
  unfold K.nextPositions
  rw [rr _ l6, rr _ l6', eJ, ← hJ0, ← hb]
  simp only [Bind.bind, Except.bind]
  have ms : (U.solver c s).jacobianMultiplier = s.jacobianMultiplier := rfl
  have la : (U.solver c s).la = s.la := rfl
  rw [ms, la, rem (signed ks J0) (by simp [signed]; omega), rem J0 lJ0, signed, dropFrom_zip _ _ _ _ _ (by omega)]
  obtain ⟨J, hJ⟩ : ∃ J, J = dropFrom 0 ign J0 := ⟨_, rfl⟩
  obtain ⟨k1, hk1⟩ : ∃ k1, k1 = dropFrom 0 ign ks := ⟨_, rfl⟩
  have lJ : J.length + ign.length = c.movableNodes.length := by
    rw [hJ]
    have := removeIndices_length _ _ _ _ (rem J0 lJ0)
    omega
  have lk1 : k1.length = J.length := by rw [hk1, hJ]; exact dropFrom_length _ _ _ _ (by omega)
  have sk1 : ∀ k ∈ k1, k = 1 ∨ k = -1 := fun k hk => sks k (dropFrom_mem _ _ _ k (hk1 ▸ hk))
  have cJ : ∀ col ∈ J, col.length = b.length := fun col h => cJ0 col (dropFrom_mem _ _ _ col (hJ ▸ h))
  rw [← hJ, ← hk1]
  simp only []
  have zeros : ∀ dq : List ℝ, dq.length = J.length →
      insertZeros ign (Units.list k1 dq) = (insertZeros ign dq).map (Units.list ks) := fun dq ld => by
    rw [hk1]
    exact insertZeros_signs srt ks dq (by rw [← hk1]; omega) (by omega) fun j hj => by have := below j hj; omega
  by_cases gt : c.dof - ign.length > countTrue ops
  · simp only [if_pos gt]
    by_cases z : countTrue ops = 0
    · simp only [if_pos z]
      rfl
    · simp only [if_neg z]
      have lt : b.length < J.length := by omega
      cases hf : s.nullspaceFunction with
      | none =>
        have hf' : (U.solver c s).nullspaceFunction = none := by simp only [solver, hf, Option.map_none]
        obtain ⟨e, le⟩ := F.la.svd k1 J b sk1 lk1 lt cJ
        simp only [hf', e, zeros _ le]
        cases insertZeros ign (s.la.svdSolve J b) with
        | error m => rfl
        | ok dq =>
          simp only [Except.map]
          rw [coords, hks, add_signs _ _ _ _ (by omega)]
          rfl
      | some f =>
        have hf' : (U.solver c s).nullspaceFunction = some fun xs =>
            (f (list U.back c.movableNodes xs)).map (U.changes c) := by
          simp only [solver, hf, Option.map_some]
        simp only [hf', coords, list_back]
        cases hs : f orig with
        | error m => rfl
        | ok sub =>
          simp only [Except.map, changes, changes_eq, ← hks]
          by_cases ls : sub.length = c.movableNodes.length
          · rw [rem sub ls, rem _ (by rw [Units.list_length]; exact ls), units_list_zip (by omega),
              dropFrom_zip _ _ _ _ _ (by omega), ← hk1]
            have l4 : (dropFrom 0 ign sub).length = J.length := by rw [hJ]; exact dropFrom_length _ _ _ _ (by omega)
            have ne : ¬ (dropFrom 0 ign sub).length ≠ c.dof - ign.length := by omega
            rw [← units_list_zip (by omega)]
            simp only [Units.list_length, if_neg ne]
            have ld : c.dof - ign.length = J.length := by omega
            obtain ⟨e, le⟩ := nullspaceStep_signs F.la sk1 rfl lk1 lt cJ l4
            rw [ld, e, zeros _ le]
            cases insertZeros ign (nullspaceStep J.length (s.la.pinv J) J b (dropFrom 0 ign sub)) with
            | error m => rfl
            | ok dq =>
              simp only [Except.map]
              rw [hks, add_signs _ _ _ _ (by omega)]
              rfl
          · rcases Units.removeIndices_same ign 0 sub (Units.list ks sub) (Units.list_length _ _).symm with
              ⟨m, a1, a2⟩ | ⟨x, y, a1, a2⟩
            · rw [a1, a2]
            · rw [a1, a2]
              have l1 := removeIndices_length _ _ _ _ a1
              have l2 := removeIndices_length _ _ _ _ a2
              rw [Units.list_length] at l2
              simp only []
              rw [if_pos (by omega), if_pos (by omega)]
  · simp only [if_neg gt]
    have ni : ign = [] := List.eq_nil_of_length_eq_zero (by
      rcases spread with e | e
      · rw [hi, e]; rfl
      · omega)
    subst ni
    rw [dropFrom_empty] at hk1
    subst hk1
    rw [F.la.lu k1 J b sks lk1 (by simp at lJ gt enough; omega) cJ]
    cases s.la.lu J b with
    | none => rfl
    | some x =>
      simp only [Option.map_some, Except.map]
      rw [coords, hks, add_signs _ _ _ _ (by omega)]
      rfl

end Coords

namespace Recast
open K.Coords

/-- what a step of inverse kinematics answers -/
inductive _root_.K.Coords.SameDiff (U : Coords) : Except (KError ℝ) (List ℝ) → Except (KError ℝ) (List ℝ) → Prop
  | ok (d : List ℝ) : SameDiff U (.ok d) (.ok d)
  | error {e e' : KError ℝ} (h : U.SameError e e') : SameDiff U (.error e) (.error e')

theorem solveOneLoop {s : IkSolver ℝ} {c : Chain} {cs : Constraints} (F : SolveFits s c cs) {ign : List Nat}
    (hi : ign.length = cs.ignoredJointNames.length) (srt : ign.Pairwise (· < ·))
    (below : ∀ j ∈ ign, j < c.movableNodes.length)
    (enough : countTrue (defineOperationalSpace cs) ≤ c.dof - ign.length) (target : Iso ℝ) :
    Recast U U.SameDiff (solveOneLoop s c target (defineOperationalSpace cs) ign)
      (solveOneLoop (U.solver c s) c target (defineOperationalSpace cs) ign) := by
  refine (jointPositions c).bind fun orig _ ⟨e1, lo⟩ => (endTransform c).bind fun t _ e2 =>
    (jacobian c).bind fun m _ ⟨e3, lm, l6⟩ => ?_
  subst e1 e2 e3
  have lf : (calcPoseDiff target t).length = 6 := rfl
  have h := Coords.nextPositions (U := U) F hi srt below enough lm l6 lf lo
  show Recast U _ (Prog.ofExcept (K.nextPositions s (defineOperationalSpace cs) ign c.dof m
      (selectFlags (defineOperationalSpace cs) (calcPoseDiff target t)) orig) >>= _)
    (Prog.ofExcept (K.nextPositions (U.solver c s) (defineOperationalSpace cs) ign c.dof (U.matrix c m)
      (selectFlags (defineOperationalSpace cs) (calcPoseDiff target t)) (U.coords c orig)) >>= _)
  rw [h]
  cases e : K.nextPositions s (defineOperationalSpace cs) ign c.dof m
      (selectFlags (defineOperationalSpace cs) (calcPoseDiff target t)) orig with
  | error x => exact .panic x
  | ok y =>
    cases y with
    | error y =>
      cases Scaled.nextPositions_error e
      exact .ret (.error (.other _ fun _ _ _ _ h => by cases h))
    | ok xs =>
      refine (setJointPositionsClamped c xs).bind fun _ _ _ => (endTransform c).bind fun t' _ e4 => .ret ?_
      subst e4
      exact .ok _

theorem tryLoop {s : IkSolver ℝ} {c : Chain} {cs : Constraints} (F : SolveFits s c cs) {ign : List Nat}
    (hi : ign.length = cs.ignoredJointNames.length) (srt : ign.Pairwise (· < ·))
    (below : ∀ j ∈ ign, j < c.movableNodes.length)
    (enough : countTrue (defineOperationalSpace cs) ≤ c.dof - ign.length) (target : Iso ℝ) (orig : List ℝ) (left : Nat)
    (last : Option (V3 ℝ × V3 ℝ)) :
    Recast U U.SameResult (tryLoop s c target (defineOperationalSpace cs) ign orig left last)
      (tryLoop (U.solver c s) c target (defineOperationalSpace cs) ign (U.coords c orig) left
        last) := by
  induction left generalizing last with
  | zero =>
    refine (setJointPositions c orig).bind fun r r' h => ?_
    cases h with
    | error h => exact .ret (.error h)
    | ok =>
      refine (expectSame last _).bind fun d _ e => ?_
      subst e
      exact .ret (.error (.other _ fun _ _ _ _ h => by cases h))
  | succ left ih =>
    refine (solveOneLoop F hi srt below enough target).bind fun r r' h => ?_
    cases h with
    | error h => exact .ret (.error h)
    | ok d =>
      have hr : ∀ p w, K.reached (U.solver c s) p w = K.reached s p w := fun _ _ => rfl
      simp only [hr]
      split
      · exact (jointPositions c).bind fun xs _ e => by
          obtain ⟨rfl, -⟩ := e
          exact (setJointPositionsClamped c xs).bind fun _ _ _ => .ret .ok
      · exact ih _

theorem jointIndex (name : String) (ns : List NodeId) :
    Recast U (fun o o' => o' = o ∧ ∀ i, o = some i → ∃ n, ns[i]? = some n ∧ U.name n = name)
      (jointIndex name ns : KProg ℝ _) (jointIndex name ns) := by
  induction ns with
  | nil => exact .ret ⟨rfl, fun i e => by cases e⟩
  | cons n ns ih =>
    refine (joint n).bind fun j _ ⟨e, s, F, es⟩ => ?_
    subst e es
    show Recast U _ (if s.joint.name == name then _ else _) (if s.joint.name == name then _ else _)
    split
    · rename_i h
      exact .ret ⟨rfl, fun i e => by cases e; exact ⟨n, rfl, by rw [← F.name]; exact eq_of_beq h⟩⟩
    · refine ih.bind fun _ o ⟨e, h⟩ => ?_
      subst e
      refine .ret ⟨rfl, fun i e => ?_⟩
      cases o with
      | none => cases e
      | some k => cases e; exact h k rfl

theorem ignoredIndices (c : Chain) (names : List String) :
    Recast U (fun r r' => r' = r ∧ (∀ is, r = .ok is → is.length = names.length ∧
        (∀ j ∈ is, ∃ n, c.movableNodes[j]? = some n ∧ U.name n ∈ names) ∧ (names.Nodup → is.Nodup)) ∧
        ∀ e, r = .error e → ∃ name, e = .invalidJointName name)
      (ignoredIndices c names : KProg ℝ _) (ignoredIndices c names) := by
  induction names with
  | nil => exact .ret ⟨rfl, fun is e => by cases e; exact ⟨rfl, by simp, fun _ => .nil⟩, fun e h => by cases h⟩
  | cons name names ih =>
    refine (jointIndex name c.movableNodes).bind fun _ o ⟨e, ho⟩ => ?_
    subst e
    cases o with
    | none => exact .ret ⟨rfl, fun is e => by (cases e), fun e h => by cases h; exact ⟨name, rfl⟩⟩
    | some i =>
      obtain ⟨n, hn, en⟩ := ho i rfl
      refine ih.bind fun r r' ⟨e, h1, h2⟩ => ?_
      subst e
      cases r' with
      | error e => exact .ret ⟨rfl, fun is e => by (cases e), fun e' h => by cases h; exact h2 e rfl⟩
      | ok is =>
        obtain ⟨l, h, nd⟩ := h1 is rfl
        refine .ret ⟨rfl, fun js e => ?_, fun e h => by cases h⟩
        cases e
        refine ⟨by simp [l], fun j hj => ?_, fun hnd => ?_⟩
        · rcases List.mem_cons.1 hj with rfl | hj
          · exact ⟨n, hn, by rw [en]; simp⟩
          · obtain ⟨m, a, b⟩ := h j hj
            exact ⟨m, a, List.mem_cons_of_mem _ b⟩
        · rw [List.nodup_cons] at hnd ⊢
          refine ⟨fun hi => ?_, nd hnd.2⟩
          obtain ⟨m, a, b⟩ := h i hi
          rw [hn] at a
          cases a
          exact hnd.1 (en ▸ b)

theorem solveInternal {s : IkSolver ℝ} {c : Chain} {cs : Constraints} (F : SolveFits s c cs) (target : Iso ℝ) :
    Recast U U.SameResult (solveInternal s c target cs) (solveInternal (U.solver c s) c target cs) := by
  refine (jointPositions c).bind fun orig _ ⟨e1, _⟩ => ?_
  subst e1
  split
  · exact .panic _
  · simp only []
    split
    · exact .ret (.error (.other _ fun _ _ _ _ h => by cases h))
    · rename_i h1 h2
      refine (ignoredIndices c cs.ignoredJointNames).bind fun r r' ⟨e, h3, h4⟩ => ?_
      subst e
      cases r' with
      | error e =>
        obtain ⟨name, rfl⟩ := h4 e rfl
        exact .ret (.error (.other _ fun _ _ _ _ h => by cases h))
      | ok is =>
        obtain ⟨l, hs, nd⟩ := h3 is rfl
        have li : (is.mergeSort fun a b => decide (a ≤ b)).length = cs.ignoredJointNames.length := by
          rw [List.length_mergeSort]; exact l
        have perm : (sortedIndices is).Perm is := List.mergeSort_perm _ _
        have srt : (sortedIndices is).Pairwise (· ≤ ·) := (List.pairwise_mergeSort (le := fun a b : Nat => decide (a ≤ b))
          (fun a b c h1 h2 => by simp only [decide_eq_true_eq] at h1 h2 ⊢; omega)
          (fun a b => by simp only [Bool.or_eq_true, decide_eq_true_eq]; omega) is).imp fun h => of_decide_eq_true h
        have lt : (sortedIndices is).Pairwise (· < ·) :=
          (srt.and (show (sortedIndices is).Pairwise (· ≠ ·) from perm.nodup_iff.2 (nd F.nodup))).imp fun h =>
            Nat.lt_of_le_of_ne h.1 h.2
        exact tryLoop F li lt (fun j hj => by
          obtain ⟨n, hn, -⟩ := hs j (perm.mem_iff.1 hj)
          exact (List.getElem?_eq_some_iff.1 hn).1) (by rw [li]; omega) target orig s.numMaxTry none

theorem solveWithConstraints {s : IkSolver ℝ} {c : Chain} {cs : Constraints} (F : SolveFits s c cs) (target : Iso ℝ) :
    Recast U U.SameResult (solveWithConstraints s c target cs) (solveWithConstraints (U.solver c s) c target cs) := by
  refine (jointPositions c).bind fun orig _ ⟨e1, _⟩ => (solveInternal F target).bind fun r r' h => ?_
  subst e1
  cases h with
  | ok => exact .ret .ok
  | error h =>
    refine (setJointPositions c orig).bind fun r r' h' => ?_
    cases h' with
    | ok => exact .ret (.error h)
    | error h' => exact .ret (.error h')

theorem call (c : Call ℝ β) (F : c.FitsCoords U) : Recast U (c.Reads U) c.prog (c.inCoords U).prog := by
  cases c with
  | newNode j => exact F.elim
  | cloneChain fuel c => exact F.elim
  | setParent n p => exact (setParent n p).imp fun _ _ e => e.symm
  | removeParent n p => exact (removeParent n p).imp fun _ _ e => e.symm
  | setMimicParent n p m => exact (setMimicParent n p m F).imp fun _ _ e => e.symm
  | setLink n l => exact (setLink n l).imp fun _ _ e => e.symm
  | setOrigin n t => exact (setOrigin n t).imp fun _ _ e => e.symm
  | setJointPosition n x => exact setJointPosition n x
  | setJointPositionClamped n x => exact (setJointPositionClamped n x).imp fun _ _ e => e.symm
  | setJointPositionUnchecked n x => exact (setJointPositionUnchecked n x).imp fun _ _ e => e.symm
  | joint n => exact (joint n).imp fun _ _ e => e.1
  | jointPosition n => exact jointPosition n
  | parent n => exact (parent n).imp fun _ _ e => e.symm
  | mimicParent n => exact (mimicParent n).imp fun _ _ e => e.symm
  | children n => exact (children n).imp fun _ _ e => e.symm
  | link n => exact (link n).imp fun _ _ e => e.symm
  | isRoot n => exact (isRoot n).imp fun _ _ e => e.symm
  | isEnd n => exact (isEnd n).imp fun _ _ e => e.symm
  | origin n => exact origin n
  | worldTransform n => exact (worldTransform n).imp fun _ _ e => e.symm
  | worldVelocity n => exact (worldVelocity n).imp fun _ _ e => e.symm
  | iterAncestors fuel n => exact (ancestors fuel (some n)).imp fun _ _ e => e.symm
  | iterDescendants fuel n => exact (descendants fuel [n]).imp fun _ _ e => e.symm
  | fromNodes ns => exact (fromNodes ns).imp fun _ _ e => e.symm
  | fromRoot fuel n => exact (fromRoot fuel n).imp fun _ _ e => e.symm
  | fromEnd fuel n => exact (fromEnd fuel n).imp fun _ _ e => e.symm
  | fromEndToRoot fuel e r => exact (fromEndToRoot fuel e r).imp fun _ _ e => e.symm
  | chainSetOrigin c t => exact (chainSetOrigin c t).imp fun _ _ e => e.symm
  | chainOrigin c => exact chainOrigin c
  | iterJoints c => exact iterJoints c
  | iterLinks c => exact (iterLinks c).imp fun _ _ e => e.symm
  | find c name => exact (find c name).imp fun _ _ e => e.symm
  | jointPositions c => exact jointPositions c
  | setJointPositions c xs => exact setJointPositions c xs
  | setJointPositionsClamped c xs => exact (setJointPositionsClamped c xs).imp fun _ _ e => e.symm
  | setJointPositionsUnchecked c xs => exact (setJointPositionsUnchecked c xs).imp fun _ _ e => e.symm
  | updateTransforms c => exact (updateTransforms c).imp fun _ _ e => e.symm
  | updateVelocities c => exact (updateVelocities c F).imp fun _ _ e => e.symm
  | updateLinkTransforms c => exact (updateLinkTransforms c).imp fun _ _ e => e.symm
  | tryNew c => exact (tryNew c).imp fun _ _ e => e.symm
  | endTransform c => exact (endTransform c).imp fun _ _ e => e.symm
  | display fuel c => exact (display c F fuel).imp fun _ _ e => e.symm
  | jacobian c => exact (jacobian c).imp fun _ _ e => ⟨e.1, e.2.1⟩
  | centerOfMass c => exact (centerOfMass c).imp fun _ _ e => e.symm
  | solve s c target cs => exact solveWithConstraints F target

theorem client {p q : Client ℝ α} (h : p.SameInCoords U q) : Recast U Eq p.prog q.prog := by
  induction h with
  | done a => exact .ret rfl
  | call c k k' fits next ih => exact (call c fits).bind ih

/-- threads that do the same -/
inductive All (U : Coords) : List (KProg ℝ α) → List (KProg ℝ α) → Prop
  | nil : All U [] []
  | cons {p q ps qs} (h : Recast U Eq p q) (t : All U ps qs) : All U (p :: ps) (q :: qs)

theorem All.get {ps qs : List (KProg ℝ α)} (a : All U ps qs) (i : Nat) {p : KProg ℝ α} (e : ps[i]? = some p) :
    ∃ q, qs[i]? = some q ∧ Recast U Eq p q := by
  induction a generalizing i with
  | nil => simp at e
  | cons h t ih =>
    cases i with
    | zero => simp at e; subst e; exact ⟨_, rfl, h⟩
    | succ i => exact ih i (by simpa using e)

theorem All.set {ps qs : List (KProg ℝ α)} (a : All U ps qs) (i : Nat) {p q : KProg ℝ α} (h : Recast U Eq p q) :
    All U (ps.set i p) (qs.set i q) := by
  induction a generalizing i with
  | nil => exact .nil
  | cons h' t ih =>
    cases i with
    | zero => exact .cons h t
    | succ i => exact .cons h' (ih i)

theorem All.length {ps qs : List (KProg ℝ α)} (a : All U ps qs) : ps.length = qs.length := by
  induction a with
  | nil => rfl
  | cons _ _ ih => simp [ih]

end Recast

/-! ## The theorems -/

/-- **C91.** Where the zero of a joint is and in which direction it counts does not matter: a client that makes the
same calls in other coordinates, on the robot in the other coordinates, has the same outcome - the same result, the same
panic, the same lock it waits for - and leaves the memory in the other coordinates. -/
theorem C91_sequential {p q : Client ℝ α} (same : p.SameInCoords U q) (h : KHeap ℝ) (fits : ∀ n, U.Fits n (h.get n)) :
    run q.prog (U.heap h) = (run p.prog h).inCoords U := by
  have := (Recast.client same).outcome h fits
  cases e : run p.prog h <;> cases e' : run q.prog (U.heap h) <;> rw [e, e'] at this <;>
    simp only [CoordOutcome] at this
  · obtain ⟨rfl, rfl, -⟩ := this; rfl
  · obtain ⟨rfl, rfl⟩ := this; rfl
  · obtain ⟨rfl, rfl⟩ := this; rfl
  · rfl

/-- **C91**, one call: in the other coordinates it gives the same answer in the other coordinates. -/
theorem C91_call (c : Call ℝ β) (h : KHeap ℝ) (fits : ∀ n, U.Fits n (h.get n)) (ok : c.FitsCoords U) :
    (∀ a g, run c.prog h = .ok a g → ∃ a', run (c.inCoords U).prog (U.heap h) = .ok a' (U.heap g) ∧ c.Reads U a a' ∧
      ∀ n, U.Fits n (g.get n)) ∧
    (∀ m g, run c.prog h = .panic m g → run (c.inCoords U).prog (U.heap h) = .panic m (U.heap g)) ∧
    (∀ n g, run c.prog h = .blocked n g → run (c.inCoords U).prog (U.heap h) = .blocked n (U.heap g)) ∧
    (run c.prog h = .diverged → run (c.inCoords U).prog (U.heap h) = .diverged) := by
  have := (Recast.call c ok).outcome h fits
  refine ⟨fun a g x => ?_, fun m g x => ?_, fun n g x => ?_, fun x => ?_⟩ <;> rw [x] at this <;>
    cases e' : run (c.inCoords U).prog (U.heap h) <;> rw [e'] at this <;>
    simp only [CoordOutcome] at this
  · exact ⟨_, by rw [this.2.1], this.1, this.2.2⟩
  · rw [this.1, this.2]
  · rw [this.1, this.2]

/-- **C91**, threads: whatever threads can do - with any interleaving, nodes being freed at any moment - threads that
make the calls in the other coordinates can do, with the same results and panics, and each waiting for the same lock. -/
theorem C91_threads (pq : List (Client ℝ α × Client ℝ α)) (same : ∀ x ∈ pq, x.1.SameInCoords U x.2) (h : KHeap ℝ)
    (fits : ∀ n, U.Fits n (h.get n)) (d : Config (NodeImpl ℝ) α) (st : DSteps ⟨h, pq.map fun x => x.1.prog⟩ d) :
    ∃ d', DSteps ⟨U.heap h, pq.map fun x => x.2.prog⟩ d' ∧ d'.heap = U.heap d.heap ∧
      (∀ (i : Nat) a, d.threads[i]? = some (Prog.ret a) → d'.threads[i]? = some (Prog.ret a)) ∧
      (∀ (i : Nat) m, d.threads[i]? = some (Prog.panic m) → d'.threads[i]? = some (Prog.panic m)) ∧
      ∀ (i : Nat) n k, d.threads[i]? = some (Prog.lock n k) → ∃ k, d'.threads[i]? = some (Prog.lock n k) := by
  suffices ∃ ts, DSteps ⟨U.heap h, pq.map fun x => x.2.prog⟩ ⟨U.heap d.heap, ts⟩ ∧ Recast.All U d.threads ts ∧
      ∀ n, U.Fits n (d.heap.get n) by
    obtain ⟨ts, a, b, -⟩ := this
    refine ⟨_, a, rfl, fun i x e => ?_, fun i m e => ?_, fun i n k e => ?_⟩
    all_goals
      obtain ⟨q, e', s⟩ := b.get i e
      cases s
    · rename_i q; subst q; exact e'
    · exact e'
    · exact ⟨_, e'⟩
  induction st with
  | refl =>
    refine ⟨_, .refl _, ?_, fits⟩
    clear fits
    induction pq with
    | nil => exact .nil
    | cons x pq ih =>
      exact .cons (Recast.client (same x (by simp))) (ih fun y hy => same y (List.mem_cons_of_mem _ hy))
  | @tail d e _ s ih =>
    obtain ⟨ts, a, b, f⟩ := ih
    cases s with
    | free F => exact ⟨ts, a.tail (by rw [U.heap_free]; exact DStep.free ⟨U.heap d.heap, ts⟩ F), b, f⟩
    | thread s =>
      cases s with
      | mk i p p' h' hi hs =>
        obtain ⟨q, e', s⟩ := b.get i hi
        obtain ⟨q', x, y, z⟩ := s.step _ _ f hs
        exact ⟨ts.set i q', a.tail (.thread (Step.mk ⟨U.heap d.heap, ts⟩ i q q' (U.heap h') e' x)), b.set i y, z⟩

end

end K
