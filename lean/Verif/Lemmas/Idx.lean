import Verif.Spec.Ik
/-!
# Removing and re-inserting entries
-/

namespace K
variable {T : Type} [Scalar T] {α : Type}

/-- `dropIdx` for a list whose first index is `k` -/
def dropFrom (k : Nat) (is : List Nat) (xs : List α) : List α :=
  ((xs.zipIdx k).filter fun p => !is.contains p.2).map Prod.fst

theorem dropIdx_eq (is : List Nat) (xs : List α) : dropIdx is xs = dropFrom 0 is xs := rfl

@[simp] theorem dropFrom_nil (k : Nat) (is : List Nat) : dropFrom k is ([] : List α) = [] := rfl

theorem dropFrom_cons (k : Nat) (is : List Nat) (x : α) (xs : List α) :
    dropFrom k is (x :: xs) = if k ∈ is then dropFrom (k + 1) is xs else x :: dropFrom (k + 1) is xs := by
  unfold dropFrom
  rw [List.zipIdx_cons, List.filter_cons]
  by_cases h : k ∈ is <;> simp [h]

theorem dropFrom_congr (k : Nat) (is js : List Nat) (xs : List α)
    (e : ∀ i, k ≤ i → (i ∈ is ↔ i ∈ js)) : dropFrom k is xs = dropFrom k js xs := by
  induction xs generalizing k with
  | nil => rfl
  | cons x xs ih =>
    rw [dropFrom_cons, dropFrom_cons, ih (k + 1) fun i hi => e i (by omega)]
    simp only [e k (Nat.le_refl _)]

theorem dropFrom_empty (k : Nat) (xs : List α) : dropFrom k [] xs = xs := by
  induction xs generalizing k with
  | nil => rfl
  | cons x xs ih => rw [dropFrom_cons, ih]; simp

theorem dropFrom_shift (k : Nat) (is : List Nat) (xs : List α) (p : ∀ i ∈ is, 0 < i) :
    dropFrom (k + 1) is xs = dropFrom k (is.map (· - 1)) xs := by
  induction xs generalizing k with
  | nil => rfl
  | cons x xs ih =>
    rw [dropFrom_cons, dropFrom_cons, ih (k + 1)]
    have : k + 1 ∈ is ↔ k ∈ is.map (· - 1) := by
      rw [List.mem_map]
      constructor
      · intro h; exact ⟨_, h, rfl⟩
      · rintro ⟨i, hi, e⟩
        have := p i hi
        have : i = k + 1 := by omega
        exact this ▸ hi
    simp only [this]

theorem dropFrom_erase (k a : Nat) (as : List Nat) (xs : List α) (ka : k ≤ a)
    (lt : ∀ b ∈ as, a < b) :
    dropFrom k (as.map (· - 1)) (xs.eraseIdx (a - k)) = dropFrom k (a :: as) xs := by
  induction xs generalizing k with
  | nil => rfl
  | cons x xs ih =>
    rw [dropFrom_cons]
    rcases Nat.eq_or_lt_of_le ka with rfl | h
    · rw [if_pos (by simp), Nat.sub_self, List.eraseIdx_cons_zero, ← dropFrom_shift]
      · refine dropFrom_congr _ _ _ _ fun i hi => ?_
        simp only [List.mem_cons]
        exact ⟨.inr, fun h => h.resolve_left (by omega)⟩
      · exact fun i hi => Nat.lt_of_le_of_lt (Nat.zero_le _) (lt i hi)
    · have n1 : k ∉ a :: as := by
        simp only [List.mem_cons, not_or]
        exact ⟨by omega, fun hk => absurd (lt k hk) (by omega)⟩
      have n2 : k ∉ as.map (· - 1) := by
        rw [List.mem_map]; rintro ⟨b, hb, e⟩
        have := lt b hb; omega
      rw [if_neg n1, show a - k = (a - (k + 1)) + 1 by omega, List.eraseIdx_cons_succ, dropFrom_cons,
        if_neg n2, ih (k + 1) h]

theorem dropFrom_erase_after (k a : Nat) (as : List Nat) (xs : List α) (ka : k ≤ a)
    (lt : ∀ b ∈ as, a < b) :
    dropFrom k (a :: as) xs = (dropFrom k as xs).eraseIdx (a - k) := by
  induction xs generalizing k with
  | nil => rfl
  | cons x xs ih =>
    have n0 : k ∉ as := fun hk => absurd (lt k hk) (by omega)
    rw [dropFrom_cons, dropFrom_cons, if_neg n0]
    rcases Nat.eq_or_lt_of_le ka with rfl | h
    · rw [if_pos (by simp), Nat.sub_self, List.eraseIdx_cons_zero]
      refine dropFrom_congr _ _ _ _ fun i hi => ?_
      simp only [List.mem_cons]
      exact ⟨fun h => h.resolve_left (by omega), .inr⟩
    · rw [if_neg (by simp only [List.mem_cons, not_or]; exact ⟨by omega, n0⟩),
        show a - k = (a - (k + 1)) + 1 by omega, List.eraseIdx_cons_succ, ih (k + 1) h]

/-- removal of increasing indices -/
theorem removeIndices_ok (is : List Nat) (i : Nat) (xs : List α) (srt : is.Pairwise (· < ·))
    (ge : ∀ j ∈ is, i ≤ j) (lt : ∀ j ∈ is, j < xs.length + i) :
    removeIndices is i xs = .ok (dropFrom 0 (is.map (· - i)) xs) := by
  induction is generalizing i xs with
  | nil => simp [removeIndices, dropFrom_empty]
  | cons a rest ih =>
    rw [List.pairwise_cons] at srt
    have ga := ge a (by simp)
    have la := lt a (by simp)
    have hl : a - i < xs.length := by omega
    rw [removeIndices, if_neg (by omega), if_pos hl, ih (i + 1) _ srt.2]
    · rw [List.map_cons, ← dropFrom_erase 0 (a - i) _ xs (Nat.zero_le _), List.map_map]
      · congr 2
      · intro b hb
        obtain ⟨j, hj, rfl⟩ := List.mem_map.1 hb
        have := srt.1 j hj
        omega
    · intro j hj; have := srt.1 j hj; omega
    · intro j hj
      have := lt j (by simp [hj])
      rw [List.length_eraseIdx_of_lt hl]
      omega

/-- insertion at increasing indices -/
theorem insertZeros_ok (is : List Nat) (ys : List T) (srt : is.Pairwise (· < ·))
    (lt : ∀ j ∈ is, j < ys.length + is.length) :
    ∃ zs, insertZeros is ys = .ok zs ∧ dropIdx is zs = ys ∧ zs.length = ys.length + is.length ∧
      (∀ j ∈ is, zs[j]? = some 0) ∧ ∀ j, (∀ b ∈ is, j < b) → zs[j]? = ys[j]? := by
  induction is generalizing ys with
  | nil => exact ⟨ys, rfl, dropFrom_empty 0 ys, rfl, by simp, fun _ _ => rfl⟩
  | cons a rest ih =>
    rw [List.pairwise_cons] at srt
    have cnt : ∀ (l : List Nat) (a x : Nat), l.Pairwise (· < ·) → (∀ b ∈ l, a < b ∧ b < x) → a < x →
        a + l.length < x := by
      intro l
      induction l with
      | nil => intro a x _ _ h; simpa using h
      | cons b l ih =>
        intro a x sp hb _
        rw [List.pairwise_cons] at sp
        have h1 := hb b (by simp)
        have := ih b x sp.2 (fun d hd => ⟨sp.1 d hd, (hb d (by simp [hd])).2⟩) h1.2
        simp only [List.length_cons]; omega
    have la : a ≤ ys.length := by
      have := cnt rest a _ srt.2 (fun b hb => ⟨srt.1 b hb, lt b (by simp [hb])⟩) (lt a (by simp))
      simp only [List.length_cons] at this; omega
    have len : (ys.insertIdx a 0).length = ys.length + 1 := by
      rw [List.length_insertIdx, if_pos la]
    obtain ⟨zs, e, d, l, z, f⟩ := ih (ys.insertIdx a 0) srt.2 (fun j hj => by
      have := lt j (by simp [hj]); simp only [List.length_cons] at this; rw [len]; omega)
    refine ⟨zs, by rw [insertZeros, if_pos la]; exact e, ?_, by rw [l, len]; simp; omega, ?_, ?_⟩
    · rw [dropIdx_eq, dropFrom_erase_after 0 a rest zs (Nat.zero_le _) srt.1, ← dropIdx_eq, d]
      exact List.eraseIdx_insertIdx_self _
    · intro j hj
      rcases List.mem_cons.1 hj with rfl | hj
      · rw [f j srt.1, List.getElem?_insertIdx_self, if_pos la]
      · exact z j hj
    · intro j hj
      have ja := hj a (by simp)
      rw [f j fun b hb => hj b (by simp [hb]), List.getElem?_insertIdx_of_lt ja]

/-- what a successful insertion at increasing indices leaves there -/
theorem insertZeros_zero (is : List Nat) (ys zs : List T) (srt : is.Pairwise (· < ·))
    (e : insertZeros is ys = .ok zs) :
    (∀ j ∈ is, zs[j]? = some 0) ∧ ∀ j, (∀ b ∈ is, j < b) → zs[j]? = ys[j]? := by
  induction is generalizing ys with
  | nil => cases e; exact ⟨by simp, fun _ _ => rfl⟩
  | cons a rest ih =>
    rw [List.pairwise_cons] at srt
    rw [insertZeros] at e
    by_cases la : a ≤ ys.length
    · rw [if_pos la] at e
      obtain ⟨z, f⟩ := ih _ srt.2 e
      refine ⟨fun j hj => ?_, fun j hj => ?_⟩
      · rcases List.mem_cons.1 hj with rfl | hj
        · rw [f j srt.1, List.getElem?_insertIdx_self, if_pos la]
        · exact z j hj
      · have ja := hj a (by simp)
        rw [f j fun b hb => hj b (by simp [hb]), List.getElem?_insertIdx_of_lt ja]
    · rw [if_neg la] at e; cases e

end K
