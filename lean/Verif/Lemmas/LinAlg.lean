import Verif.Lemmas.Idx
import Verif.Model.RealScalar
import Mathlib.Data.Matrix.Mul
import Mathlib.Algebra.BigOperators.Fin
import Mathlib.Tactic.Ring
import Mathlib.Tactic.LinearCombination
/-!
# Lists of columns as matrices
-/

namespace K
open Matrix

/-- a list as a vector -/
def toVec (n : Nat) (v : List ℝ) : Fin n → ℝ := fun i => v.getD i 0
/-- a list of columns as a matrix -/
def toMat (r n : Nat) (m : Mat ℝ) : Matrix (Fin r) (Fin n) ℝ :=
  Matrix.of fun i j => (m.getD j []).getD i 0

/-- row `i` of the matrix times the vector `d` -/
def rowSum (jac : Mat ℝ) (i : Nat) (d : List ℝ) : ℝ :=
  ((jac.zip d).map fun p => p.1.getD i 0 * p.2).sum

theorem vadd_length (a b : List ℝ) (n : Nat) (ha : a.length = n) (hb : b.length = n) :
    (vadd a b).length = n := by simp [vadd, ha, hb]

theorem toVec_zipWith (f : ℝ → ℝ → ℝ) (n : Nat) (a b : List ℝ) (ha : a.length = n) (hb : b.length = n) :
    toVec n (List.zipWith f a b) = fun i => f (toVec n a i) (toVec n b i) := by
  funext i
  have h1 : i.val < a.length := by rw [ha]; exact i.2
  have h2 : i.val < b.length := by rw [hb]; exact i.2
  simp [toVec, List.getD_eq_getElem?_getD, List.getElem?_zipWith, h1, h2]

theorem toVec_vadd (n : Nat) (a b : List ℝ) (ha : a.length = n) (hb : b.length = n) :
    toVec n (vadd a b) = toVec n a + toVec n b := toVec_zipWith _ n a b ha hb
theorem toVec_vsub (n : Nat) (a b : List ℝ) (ha : a.length = n) (hb : b.length = n) :
    toVec n (vsub a b) = toVec n a - toVec n b := toVec_zipWith _ n a b ha hb

theorem foldl_vadd (n : Nat) (m : Mat ℝ) (v acc : List ℝ) (hm : ∀ c ∈ m, c.length = n)
    (ha : acc.length = n) :
    ((List.zipWith (fun col x => col.map (· * x)) m v).foldl vadd acc).length = n ∧
    ∀ i, i < n → ((List.zipWith (fun col x => col.map (· * x)) m v).foldl vadd acc).getD i 0 =
      acc.getD i 0 + rowSum m i v := by
  induction m generalizing v acc with
  | nil => simp [rowSum, ha]
  | cons c m ih =>
    cases v with
    | nil => simp [rowSum, ha]
    | cons x v =>
      have hc : c.length = n := hm c (by simp)
      have hl : (vadd acc (c.map (· * x))).length = n := vadd_length _ _ n ha (by simp [hc])
      obtain ⟨a, b⟩ := ih v (vadd acc (c.map (· * x))) (fun c h => hm c (by simp [h])) hl
      refine ⟨a, fun i hi => ?_⟩
      rw [List.zipWith_cons_cons, List.foldl_cons, b i hi]
      have h1 : i < acc.length := by omega
      have h2 : i < c.length := by omega
      have : (vadd acc (c.map (· * x))).getD i 0 = acc.getD i 0 + c.getD i 0 * x := by
        simp [vadd, List.getD_eq_getElem?_getD, List.getElem?_zipWith, h1, h2]
      rw [this]
      simp only [rowSum, List.zip_cons_cons, List.map_cons, List.sum_cons]
      ring

theorem matVec_length (n : Nat) (m : Mat ℝ) (v : List ℝ) (hm : ∀ c ∈ m, c.length = n) :
    (matVec n m v).length = n := (foldl_vadd n m v _ hm (by simp)).1

theorem matVec_getD (n : Nat) (m : Mat ℝ) (v : List ℝ) (hm : ∀ c ∈ m, c.length = n) (i : Nat)
    (hi : i < n) : (matVec n m v).getD i 0 = rowSum m i v := by
  unfold matVec
  rw [(foldl_vadd n m v _ hm (by simp)).2 i hi]
  simp [List.getD_eq_getElem?_getD, List.getElem?_replicate, hi]

theorem rowSum_mulVec (r n : Nat) (m : Mat ℝ) (v : List ℝ) (hm : m.length = n) (hv : v.length = n)
    (i : Fin r) : rowSum m i v = (toMat r n m *ᵥ toVec n v) i := by
  induction m generalizing n v with
  | nil => subst hm; simp [rowSum, Matrix.mulVec, dotProduct]
  | cons c m ih =>
    cases v with
    | nil => simp at hv hm; omega
    | cons x v =>
      subst hm
      have hv : v.length = m.length := by simpa using hv
      have := ih m.length v rfl hv
      simp only [rowSum, List.zip_cons_cons, List.map_cons, List.sum_cons] at this ⊢
      rw [this]
      simp only [Matrix.mulVec, dotProduct]
      show _ = ∑ j : Fin (m.length + 1), _
      rw [Fin.sum_univ_succ]
      simp [toMat, toVec]

theorem toVec_matVec (n k : Nat) (m : Mat ℝ) (v : List ℝ) (hm : ∀ c ∈ m, c.length = n)
    (lm : m.length = k) (lv : v.length = k) : toVec n (matVec n m v) = toMat n k m *ᵥ toVec k v := by
  funext i
  rw [← rowSum_mulVec n k m v lm lv]
  exact matVec_getD n m v hm i i.2

theorem toMat_matMul (n k c : Nat) (a b : Mat ℝ) (ha : ∀ x ∈ a, x.length = n) (la : a.length = k)
    (hb : ∀ x ∈ b, x.length = k) (lb : b.length = c) :
    toMat n c (matMul n a b) = toMat n k a * toMat k c b := by
  ext i j
  have hj : j.val < b.length := by rw [lb]; exact j.2
  have : (toMat n c (matMul n a b)) i j = toVec n (matVec n a (b[j.val]'hj)) i := by
    simp [toMat, matMul, toVec, List.getD_eq_getElem?_getD, hj]
  rw [this, toVec_matVec n k a _ ha la (hb _ (List.getElem_mem hj))]
  simp only [Matrix.mulVec, Matrix.mul_apply, dotProduct]
  refine Finset.sum_congr rfl fun x _ => ?_
  simp [toMat, toVec, List.getD_eq_getElem?_getD, hj]

theorem toMat_matOne (n : Nat) : toMat n n (matOne n) = 1 := by
  ext i j
  simp only [toMat, matOne, Matrix.of_apply, Matrix.one_apply, List.getD_eq_getElem?_getD,
    List.getElem?_map, List.getElem?_range i.2, List.getElem?_range j.2, Option.map_some,
    Option.getD_some, Fin.ext_iff]

theorem toMat_matSub (r n : Nat) (a b : Mat ℝ) (ha : ∀ x ∈ a, x.length = r) (la : a.length = n)
    (hb : ∀ x ∈ b, x.length = r) (lb : b.length = n) :
    toMat r n (matSub a b) = toMat r n a - toMat r n b := by
  ext i j
  have h1 : j.val < a.length := by rw [la]; exact j.2
  have h2 : j.val < b.length := by rw [lb]; exact j.2
  have := congrFun (toVec_vsub r a[j] b[j] (ha _ (List.getElem_mem h1)) (hb _ (List.getElem_mem h2))) i
  simp only [toVec, Pi.sub_apply] at this
  simp only [toMat, matSub, Matrix.of_apply, Matrix.sub_apply, List.getD_eq_getElem?_getD,
    List.getElem?_zipWith, List.getElem?_eq_getElem h1, List.getElem?_eq_getElem h2, Option.getD_some]
  simpa [List.getD_eq_getElem?_getD] using this

theorem rowSum_scale (jac : Mat ℝ) (i : Nat) (k : ℝ) (d : List ℝ) :
    rowSum jac i (d.map (k * ·)) = k * rowSum jac i d := by
  induction jac generalizing d with
  | nil => simp [rowSum]
  | cons c jac ih =>
    cases d with
    | nil => simp [rowSum]
    | cons x d =>
      have := ih d
      simp only [rowSum, List.map_cons, List.zip_cons_cons, List.sum_cons] at this ⊢
      rw [this]; ring

/-- columns whose entry in `d` is zero do not matter -/
theorem rowSum_dropFrom (k : Nat) (is : List Nat) (jac : Mat ℝ) (i : Nat) (d : List ℝ)
    (z : ∀ j ∈ is, k ≤ j → j < k + d.length → d[j - k]? = some 0) :
    rowSum (dropFrom k is jac) i (dropFrom k is d) = rowSum jac i d := by
  induction jac generalizing d k with
  | nil => simp [rowSum]
  | cons c jac ih =>
    cases d with
    | nil => simp [rowSum]
    | cons x d =>
      have := ih (k + 1) d (fun j hj h1 h2 => by
        have := z j hj (by omega) (by simp; omega)
        rw [show j - k = (j - (k + 1)) + 1 by omega, List.getElem?_cons_succ] at this
        exact this)
      rw [dropFrom_cons, dropFrom_cons]
      by_cases hk : k ∈ is
      · have x0 : x = 0 := by simpa using z k hk (Nat.le_refl _) (by simp)
        rw [if_pos hk, if_pos hk, this, x0]
        simp [rowSum]
      · rw [if_neg hk, if_neg hk]
        simp only [rowSum, List.zip_cons_cons, List.map_cons, List.sum_cons] at this ⊢
        rw [this]

theorem dropFrom_map {α β : Type} (f : α → β) (k : Nat) (is : List Nat) (xs : List α) :
    dropFrom k is (xs.map f) = (dropFrom k is xs).map f := by
  induction xs generalizing k with
  | nil => rfl
  | cons x xs ih =>
    rw [List.map_cons, dropFrom_cons, dropFrom_cons, ih]
    split <;> rfl

theorem dropFrom_subset {α : Type} (k : Nat) (is : List Nat) (xs : List α) :
    ∀ x ∈ dropFrom k is xs, x ∈ xs := by
  induction xs generalizing k with
  | nil => intro x hx; exact hx
  | cons y xs ih =>
    intro x hx
    rw [dropFrom_cons] at hx
    split at hx
    · exact List.mem_cons_of_mem _ (ih _ x hx)
    · rcases List.mem_cons.1 hx with rfl | hx
      · simp
      · exact List.mem_cons_of_mem _ (ih _ x hx)

/-- the entry of a selected row -/
theorem selectFlags_getD (ops : List Bool) (col : List ℝ) (i : Nat) (hi : ops[i]? = some true) :
    (selectFlags ops col).getD (countTrue (ops.take i)) 0 = col.getD i 0 := by
  induction ops generalizing col i with
  | nil => simp at hi
  | cons b ops ih =>
    cases col with
    | nil => cases b <;> simp [selectFlags]
    | cons x col =>
      cases i with
      | zero =>
        have : b = true := by simpa using hi
        subst this
        simp [selectFlags, countTrue]
      | succ i =>
        have := ih col i (by simpa using hi)
        cases b
        · simpa [selectFlags, countTrue] using this
        · simpa [selectFlags, countTrue] using this

theorem selectFlags_length {α : Type} (ops : List Bool) (col : List α) (h : col.length = ops.length) :
    (selectFlags ops col).length = countTrue ops := by
  induction ops generalizing col with
  | nil => simp [selectFlags, countTrue]
  | cons b ops ih =>
    cases col with
    | nil => simp at h
    | cons x col =>
      have := ih col (by simpa using h)
      cases b
      · simpa [selectFlags, countTrue] using this
      · simpa [selectFlags, countTrue] using this

end K
