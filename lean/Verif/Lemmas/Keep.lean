import Verif.Lemmas.Idx
import Mathlib.Data.List.Basic
import Mathlib.Data.List.GetD
/-!
# The entries that `dropIdx` keeps
-/

namespace K
variable {α β γ : Type}

/-- the indices below `n` that are not dropped -/
def keptIdx (is : List Nat) (n : Nat) : List Nat := (List.range n).filter fun i => !is.contains i

theorem dropFrom_range (k : Nat) (is : List Nat) (xs : List α) :
    dropFrom k is xs = ((List.range' k xs.length).filter fun i => !is.contains i).filterMap fun i => xs[i - k]? := by
  induction xs generalizing k with
  | nil => rfl
  | cons x xs ih =>
    have tail : ((List.range' (k + 1) xs.length).filter fun i => !is.contains i).filterMap
        (fun i => (x :: xs)[i - k]?) = dropFrom (k + 1) is xs := by
      rw [ih]
      refine List.filterMap_congr fun i hi => ?_
      have := List.mem_range'_1.1 (List.mem_filter.1 hi).1
      rw [show i - k = i - (k + 1) + 1 by omega, List.getElem?_cons_succ]
    rw [dropFrom_cons, List.length_cons, List.range'_succ, List.filter_cons]
    by_cases h : k ∈ is
    · simp only [h, if_true]
      rw [if_neg (by simp [h]), tail]
    · simp only [h, if_false]
      rw [if_pos (by simp [h]), List.filterMap_cons, tail]
      simp

theorem dropIdx_kept (is : List Nat) (xs : List α) :
    dropIdx is xs = (keptIdx is xs.length).filterMap fun i => xs[i]? := by
  rw [dropIdx_eq, dropFrom_range, keptIdx, List.range_eq_range']
  rfl

theorem keptIdx_lt {is : List Nat} {n i : Nat} (hi : i ∈ keptIdx is n) : i < n ∧ i ∉ is := by
  have := List.mem_filter.1 hi
  exact ⟨List.mem_range.1 this.1, by simpa using this.2⟩

theorem dropIdx_getD (is : List Nat) (xs : List α) (d : α) :
    dropIdx is xs = (keptIdx is xs.length).map fun i => xs.getD i d := by
  rw [dropIdx_kept]
  have : ∀ l : List Nat, (∀ i ∈ l, i < xs.length) →
      l.filterMap (fun i => xs[i]?) = l.map fun i => xs.getD i d := by
    intro l
    induction l with
    | nil => intro _; rfl
    | cons i l ih =>
      intro hl
      have hi := hl i (by simp)
      rw [List.filterMap_cons, List.getElem?_eq_getElem hi, List.map_cons, ih fun j hj => hl j (by simp [hj]),
        List.getD_eq_getElem _ _ hi]
  exact this _ fun i hi => (keptIdx_lt hi).1

theorem dropIdx_length' (is : List Nat) (xs : List α) : (dropIdx is xs).length = (keptIdx is xs.length).length := by
  cases xs with
  | nil => rfl
  | cons x xs => rw [dropIdx_getD is _ x, List.length_map]

/-- entry `j` of what is kept is the entry at the `j`-th kept index -/
theorem dropIdx_get (is : List Nat) (xs : List α) (j : Nat) :
    (dropIdx is xs)[j]? = (keptIdx is xs.length)[j]?.bind fun i => xs[i]? := by
  cases xs with
  | nil => simp [dropIdx, keptIdx]
  | cons x xs =>
    rw [dropIdx_getD is _ x, List.getElem?_map]
    cases h : (keptIdx is (x :: xs).length)[j]? with
    | none => rfl
    | some i =>
      have := keptIdx_lt (List.mem_of_getElem? h)
      simp only [Option.map_some, Option.bind_some]
      rw [List.getElem?_eq_getElem this.1, List.getD_eq_getElem _ _ this.1]

theorem dropIdx_map (is : List Nat) (f : α → β) (xs : List α) : dropIdx is (xs.map f) = (dropIdx is xs).map f := by
  refine List.ext_getElem? fun j => ?_
  rw [dropIdx_get, List.getElem?_map, dropIdx_get, List.length_map]
  cases (keptIdx is xs.length)[j]? <;> simp

theorem dropIdx_zipWith (is : List Nat) (f : α → β → γ) (xs : List α) (ys : List β) (e : xs.length = ys.length) :
    dropIdx is (List.zipWith f xs ys) = List.zipWith f (dropIdx is xs) (dropIdx is ys) := by
  refine List.ext_getElem? fun j => ?_
  rw [dropIdx_get, List.getElem?_zipWith, dropIdx_get, dropIdx_get, List.length_zipWith, e, Nat.min_self]
  cases (keptIdx is ys.length)[j]? with
  | none => simp
  | some i => simp [List.getElem?_zipWith]

theorem dropIdx_mem {is : List Nat} {xs : List α} {x : α} (h : x ∈ dropIdx is xs) : x ∈ xs := by
  obtain ⟨j, hj⟩ := List.mem_iff_getElem?.1 h
  rw [dropIdx_get] at hj
  cases e : (keptIdx is xs.length)[j]? with
  | none => rw [e] at hj; cases hj
  | some i => rw [e] at hj; exact List.mem_of_getElem? hj

/-- what is kept of a list and what is dropped determine the list -/
theorem dropIdx_inj {is : List Nat} {xs ys : List α} (l : xs.length = ys.length) (e : dropIdx is xs = dropIdx is ys)
    (d : ∀ i ∈ is, xs[i]? = ys[i]?) : xs = ys := by
  refine List.ext_getElem? fun i => ?_
  by_cases h : i ∈ is
  · exact d i h
  · by_cases hi : i < xs.length
    · have : i ∈ keptIdx is xs.length := List.mem_filter.2 ⟨List.mem_range.2 hi, by simpa using h⟩
      obtain ⟨j, hj⟩ := List.mem_iff_getElem?.1 this
      have e' := congrArg (·[j]?) e
      simp only [dropIdx_get, ← l, hj, Option.bind_some] at e'
      exact e'
    · rw [List.getElem?_eq_none (by omega), List.getElem?_eq_none (by omega)]

theorem keptIdx_length {is : List Nat} {n : Nat} (nd : is.Nodup) (lt : ∀ i ∈ is, i < n) :
    (keptIdx is n).length + is.length = n := by
  have e : is.length = ((List.range n).filter fun i => is.contains i).length := by
    refine List.Perm.length_eq ((List.perm_ext_iff_of_nodup nd ((List.nodup_range).filter _)).2 fun i => ?_)
    simp only [List.mem_filter, List.mem_range, List.contains_iff_mem]
    exact ⟨fun h => ⟨lt i h, h⟩, fun h => h.2⟩
  rw [e, keptIdx]
  have := List.length_eq_countP_add_countP (fun i => is.contains i) (l := List.range n)
  rw [List.countP_eq_length_filter, List.countP_eq_length_filter, List.length_range] at this
  have e2 : (fun i => !is.contains i) = fun i => decide (¬ is.contains i = true) := by
    funext i; cases is.contains i <;> rfl
  rw [e2]
  omega

theorem dropIdx_length {is : List Nat} {xs : List α} (nd : is.Nodup) (lt : ∀ i ∈ is, i < xs.length) :
    (dropIdx is xs).length + is.length = xs.length := by rw [dropIdx_length', keptIdx_length nd lt]

end K
