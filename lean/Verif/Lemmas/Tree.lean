import Verif.Lemmas.Run
import Verif.Spec.Tree
import Mathlib.Data.List.Nodup
import Mathlib.Data.List.Perm.Subperm
/-!
# Trees of nodes and their traversal
-/

set_option linter.unusedSectionVars false

namespace K
open Prog
variable {T : Type} [Scalar T]

theorem upgradeOpt_parent (h : KHeap T) (n : NodeId) :
    upgradeOpt h (h.get n).parent = liveParent h n := by
  unfold upgradeOpt liveParent; cases (h.get n).parent <;> rfl

/-- finite trees of node ids -/
inductive RTree where
  | node (id : NodeId) (kids : List RTree)

namespace RTree
def id : RTree → NodeId
  | .node n _ => n
def kids : RTree → List RTree
  | .node _ ts => ts

mutual
/-- pre-order, last child first -/
def pre : RTree → List NodeId
  | .node n ts => n :: preRev ts
def preRev : List RTree → List NodeId
  | [] => []
  | t :: ts => preRev ts ++ t.pre
end

theorem preRev_eq (ts : List RTree) : preRev ts = ts.reverse.flatMap pre := by
  induction ts with
  | nil => rfl
  | cons t ts ih => simp [preRev, ih]

theorem pre_node (n : NodeId) (ts : List RTree) :
    (RTree.node n ts).pre = n :: ts.reverse.flatMap pre := by rw [pre, preRev_eq]

mutual
/-- nested-induction helper -/
theorem induct' {P : RTree → Prop} (H : ∀ n ts, (∀ t ∈ ts, P t) → P (.node n ts)) :
    ∀ t, P t
  | .node n ts => H n ts (inductL' H ts)
theorem inductL' {P : RTree → Prop} (H : ∀ n ts, (∀ t ∈ ts, P t) → P (.node n ts)) :
    ∀ ts : List RTree, ∀ t ∈ ts, P t
  | [], _, h => nomatch h
  | t' :: ts, t, h =>
    (List.mem_cons.1 h).elim (fun e => e ▸ induct' H t') fun h => inductL' H ts t h
end

end RTree

/-- the tree `t` is what hangs below node `t.id` in heap `h` -/
inductive Rep (h : KHeap T) : RTree → Prop
  | mk (n : NodeId) (ts : List RTree) (e : (h.get n).children = ts.map RTree.id)
      (r : ∀ t ∈ ts, Rep h t) : Rep h (.node n ts)

theorem Rep.children {h : KHeap T} {n : NodeId} {ts : List RTree} (r : Rep h (.node n ts)) :
    (h.get n).children = ts.map RTree.id := by cases r; assumption
theorem Rep.sub {h : KHeap T} {n : NodeId} {ts : List RTree} (r : Rep h (.node n ts)) :
    ∀ t ∈ ts, Rep h t := by cases r; assumption

/-! ## running the iterators -/

theorem run_descendants (h : KHeap T) (u : h.Unlocked) (fuel : Nat) (ts : List RTree)
    (r : ∀ t ∈ ts, Rep h t) (f : (ts.flatMap RTree.pre).length ≤ fuel) :
    run (descendants fuel (ts.map RTree.id)) h = .ok (ts.flatMap RTree.pre) h := by
  induction fuel generalizing ts with
  | zero =>
    cases ts with
    | nil => rfl
    | cons t ts => cases t; simp [RTree.pre_node] at f
  | succ fuel ih =>
    cases ts with
    | nil => rfl
    | cons t ts =>
      obtain ⟨n, ks⟩ := t
      have rt := r (.node n ks) (by simp)
      have e : (ks.map RTree.id).reverse ++ ts.map RTree.id = (ks.reverse ++ ts).map RTree.id := by
        simp
      have l : ((ks.reverse ++ ts).flatMap RTree.pre).length ≤ fuel := by
        simp only [List.flatMap_cons, RTree.pre_node, List.length_append, List.length_cons] at f
        simp only [List.flatMap_append, List.length_append]; omega
      have i := ih (ks.reverse ++ ts) (fun t ht => by
        rcases List.mem_append.1 ht with ht | ht
        · exact rt.sub t (List.mem_reverse.1 ht)
        · exact r t (by simp [ht])) l
      simp only [List.map_cons, RTree.id, descendants, run_bind, run_Node_children _ _ (u n),
        Res.bind_ok, rt.children, e, i, run_pure]
      simp [RTree.pre_node]

theorem run_ancestors (h : KHeap T) (u : h.Unlocked) (n : NodeId) (ps : List NodeId)
    (l : Lineage h n ps) (fuel : Nat) (f : ps.length ≤ fuel) :
    run (ancestors fuel (some n)) h = .ok ps h := by
  induction l generalizing fuel with
  | @root n e =>
    obtain ⟨k, rfl⟩ : ∃ k, fuel = k + 1 := ⟨fuel - 1, by simp at f; omega⟩
    simp only [ancestors, run_bind, run_Node_parent _ _ (u n), Res.bind_ok, upgradeOpt_parent, e]
    cases k <;> rfl
  | @step n p ps e _ ih =>
    obtain ⟨k, rfl⟩ : ∃ k, fuel = k + 1 := ⟨fuel - 1, by simp at f; omega⟩
    simp only [ancestors, run_bind, run_Node_parent _ _ (u n), Res.bind_ok, upgradeOpt_parent, e]
    rw [ih k (by simpa using f)]; rfl

theorem ancestorsUntil_none (r : NodeId) (fuel : Nat) :
    (ancestorsUntil r fuel none : KProg T _) = .ret [] := by cases fuel <;> rfl

/-- the elements of a list up to and including the first `r` -/
def upTo (r : NodeId) : List NodeId → List NodeId
  | [] => []
  | x :: xs => if x = r then [x] else x :: upTo r xs

theorem upTo_of_not_mem (r : NodeId) (xs : List NodeId) (h : r ∉ xs) : upTo r xs = xs := by
  induction xs with
  | nil => rfl
  | cons x xs ih => simp_all [upTo, Ne.symm]
theorem upTo_append (r : NodeId) (as bs : List NodeId) (h : r ∉ as) :
    upTo r (as ++ r :: bs) = as ++ [r] := by
  induction as with
  | nil => simp [upTo]
  | cons x xs ih =>
    have : x ≠ r := fun e => h (by simp [e])
    simp only [List.cons_append, upTo, this, if_false]
    rw [ih fun hm => h (by simp [hm])]

theorem run_ancestorsUntil (h : KHeap T) (u : h.Unlocked) (r n : NodeId) (ps : List NodeId)
    (l : Lineage h n ps) (fuel : Nat) (f : ps.length ≤ fuel) :
    run (ancestorsUntil r fuel (some n)) h = .ok (upTo r ps) h := by
  induction l generalizing fuel with
  | @root n e =>
    obtain ⟨k, rfl⟩ : ∃ k, fuel = k + 1 := ⟨fuel - 1, by simp at f; omega⟩
    simp only [ancestorsUntil, run_bind, run_Node_parent _ _ (u n), Res.bind_ok, upgradeOpt_parent,
      e, upTo]
    by_cases nr : n = r <;> simp [nr, ancestorsUntil_none]
  | @step n p ps e _ ih =>
    obtain ⟨k, rfl⟩ : ∃ k, fuel = k + 1 := ⟨fuel - 1, by simp at f; omega⟩
    simp only [ancestorsUntil, run_bind, run_Node_parent _ _ (u n), Res.bind_ok, upgradeOpt_parent,
      e, upTo]
    by_cases nr : n = r
    · simp [nr]
    · simp [nr, ih k (by simpa using f)]

/-! ## facts about forests -/

theorem Below.trans {h : KHeap T} {a b c : NodeId} (x : Below h a b) (y : Below h b c) :
    Below h a c := by
  induction y with
  | refl => exact x
  | step _ m ih => exact ih.step m

theorem Below.head {h : KHeap T} {r c n : NodeId} (hc : c ∈ (h.get r).children)
    (b : Below h c n) : Below h r n := (Below.refl.step hc).trans b

theorem Below.cases_head {h : KHeap T} {r n : NodeId} (b : Below h r n) :
    n = r ∨ ∃ c ∈ (h.get r).children, Below h c n := by
  induction b with
  | refl => exact .inl rfl
  | @step p m b hm ih =>
    right
    rcases ih with rfl | ⟨c, hc, hb⟩
    · exact ⟨m, hm, .refl⟩
    · exact ⟨c, hc, hb.step hm⟩

theorem Below.linear {h : KHeap T} (f : Forest h) {a b n : NodeId} (x : Below h a n)
    (y : Below h b n) : Below h a b ∨ Below h b a := by
  induction x with
  | refl => exact .inr y
  | @step p m x hm ih =>
    cases y with
    | refl => exact .inl (x.step hm)
    | @step q _ y hm' =>
      have e1 := (f.agree p m).1 hm
      have e2 := (f.agree q m).1 hm'
      rw [e1] at e2; cases e2
      exact ih y

theorem Below.rank_le {h : KHeap T} {rank : NodeId → Nat}
    (f : Forest h) (hr : ∀ p c, (h.get c).parent = some p → rank p < rank c) {a n : NodeId}
    (x : Below h a n) : rank a ≤ rank n := by
  induction x with
  | refl => exact Nat.le_refl _
  | @step p m _ hm ih => have := hr _ _ ((f.agree p m).1 hm); omega

theorem Below.lt_next {h : KHeap T} (f : Forest h) {r n : NodeId} (b : Below h r n) :
    n = r ∨ n < h.next := by
  cases b with
  | refl => exact .inl rfl
  | step _ hm => exact .inr (f.bound _ _ hm).1

theorem mem_pre_iff {h : KHeap T} (t : RTree) : Rep h t → ∀ n, n ∈ t.pre ↔ Below h t.id n := by
  refine RTree.induct' (P := fun t => Rep h t → ∀ n, n ∈ t.pre ↔ Below h t.id n) ?_ t
  intro m ts ih r n
  simp only [RTree.pre_node, RTree.id, List.mem_cons, List.mem_flatMap, List.mem_reverse]
  constructor
  · rintro (rfl | ⟨t, ht, hn⟩)
    · exact .refl
    · refine .head ?_ ((ih t ht (r.sub t ht) n).1 hn)
      rw [r.children]; exact List.mem_map.2 ⟨t, ht, rfl⟩
  · intro b
    rcases b.cases_head with e | ⟨c, hc, hb⟩
    · exact .inl e
    · rw [r.children, List.mem_map] at hc
      obtain ⟨t, ht, rfl⟩ := hc
      exact .inr ⟨t, ht, (ih t ht (r.sub t ht) n).2 hb⟩

theorem pre_nodup {h : KHeap T} (f : Forest h) (t : RTree) : Rep h t → t.pre.Nodup := by
  refine RTree.induct' (P := fun t => Rep h t → t.pre.Nodup) ?_ t
  intro m ts ih r
  obtain ⟨rank, hr⟩ := f.acyclic
  have pm : ∀ t ∈ ts, (h.get t.id).parent = some m := fun t ht =>
    (f.agree _ _).1 (by rw [r.children]; exact List.mem_map.2 ⟨t, ht, rfl⟩)
  rw [RTree.pre_node, List.nodup_cons]
  constructor
  · intro hm
    obtain ⟨t, ht, hn⟩ := List.mem_flatMap.1 hm
    have ht := List.mem_reverse.1 ht
    have b := (mem_pre_iff t (r.sub t ht) m).1 hn
    have := b.rank_le f hr
    have := hr _ _ (pm t ht); omega
  · rw [List.nodup_flatMap]
    refine ⟨fun t ht => ih t (List.mem_reverse.1 ht) (r.sub t (List.mem_reverse.1 ht)), ?_⟩
    have nd : (ts.map RTree.id).Nodup := r.children ▸ f.once m
    rw [List.pairwise_reverse]
    have nd' := List.pairwise_map.1 nd
    refine nd'.imp_of_mem ?_
    intro a b ha hb ne
    show List.Disjoint b.pre a.pre
    intro n hn1 hn2
    have b1 := (mem_pre_iff b (r.sub b hb) n).1 hn1
    have b2 := (mem_pre_iff a (r.sub a ha) n).1 hn2
    have key : ∀ a ∈ ts, ∀ b ∈ ts, Below h a.id b.id → a.id = b.id := by
      intro a ha b hb bl
      generalize hbi : b.id = bi at bl
      cases bl with
      | refl => rfl
      | @step q _ bl hm =>
        subst hbi
        have e := (f.agree _ _).1 hm
        rw [pm b hb] at e; cases e
        have := bl.rank_le f hr
        have := hr _ _ (pm a ha); omega
    rcases b1.linear f b2 with x | x
    · exact ne (key b hb a ha x).symm
    · exact ne (key a ha b hb x)

theorem parentsFirst_pre {h : KHeap T} (f : Forest h) (t : RTree) :
    Rep h t → ∀ pre n post, t.pre = pre ++ n :: post →
      n = t.id ∨ ∃ p ∈ pre, (h.get n).parent = some p := by
  refine RTree.induct' (P := fun t => Rep h t → ∀ pre n post, t.pre = pre ++ n :: post →
      n = t.id ∨ ∃ p ∈ pre, (h.get n).parent = some p) ?_ t
  intro m ts ih r
  have pm : ∀ t ∈ ts, (h.get t.id).parent = some m := fun t ht =>
    (f.agree _ _).1 (by rw [r.children]; exact List.mem_map.2 ⟨t, ht, rfl⟩)
  have aux : ∀ us : List RTree, (∀ t ∈ us, t ∈ ts) → ∀ pre n post,
      us.flatMap RTree.pre = pre ++ n :: post →
      (h.get n).parent = some m ∨ ∃ p ∈ pre, (h.get n).parent = some p := by
    intro us
    induction us with
    | nil => intro _ pre n post e; simp at e
    | cons t us ihu =>
      intro hus pre n post e
      have ht := hus t (by simp)
      rw [List.flatMap_cons] at e
      rcases List.append_eq_append_iff.1 e with ⟨a, e1, e2⟩ | ⟨a, e1, e2⟩
      · rcases ihu (fun t ht => hus t (by simp [ht])) a n post e2 with x | ⟨p, hp, x⟩
        · exact .inl x
        · exact .inr ⟨p, by simp [e1, hp], x⟩
      · cases a with
        | nil =>
          simp at e2
          rcases ihu (fun t ht => hus t (by simp [ht])) [] n post e2.symm with x | ⟨p, hp, x⟩
          · exact .inl x
          · cases hp
        | cons y a =>
          simp only [List.cons_append, List.cons.injEq] at e2
          obtain ⟨rfl, e2⟩ := e2
          rcases ih t ht (r.sub t ht) pre n a e1 with x | x
          · exact .inl (x ▸ pm t ht)
          · exact .inr x
  intro pre n post e
  rw [RTree.pre_node] at e
  cases pre with
  | nil => simp only [List.nil_append, List.cons.injEq] at e; exact .inl e.1.symm
  | cons y pre =>
    simp only [List.cons_append, List.cons.injEq] at e
    obtain ⟨rfl, e⟩ := e
    right
    rcases aux ts.reverse (fun t ht => List.mem_reverse.1 ht) pre n post e with x | ⟨p, hp, x⟩
    · exact ⟨m, by simp, x⟩
    · exact ⟨p, by simp [hp], x⟩

/-- in a forest every node has a finite tree below it -/
theorem Forest.exists_rep {h : KHeap T} (f : Forest h) (n : NodeId) : ∃ t, Rep h t ∧ t.id = n := by
  obtain ⟨rank, hr⟩ := f.acyclic
  obtain ⟨B, hB⟩ : ∃ B, ∀ k < h.next, rank k < B := by
    generalize h.next = N
    induction N with
    | zero => exact ⟨0, by simp⟩
    | succ N ih =>
      obtain ⟨B, hB⟩ := ih
      refine ⟨max B (rank N + 1), fun k hk => ?_⟩
      rcases Nat.lt_succ_iff_lt_or_eq.1 hk with hk | rfl
      · have := hB k hk; omega
      · omega
  suffices ∀ k n, B - rank n ≤ k → ∃ t, Rep h t ∧ t.id = n from this _ n (Nat.le_refl _)
  intro k
  induction k with
  | zero =>
    intro n hk
    have : (h.get n).children = [] := by
      cases e : (h.get n).children with
      | nil => rfl
      | cons c cs =>
        have hc : c ∈ (h.get n).children := by simp [e]
        have b := f.bound _ _ hc
        have := hB n b.2; omega
    exact ⟨.node n [], .mk n [] (by simp [this]) (by simp), rfl⟩
  | succ k ih =>
    intro n hk
    have sub : ∀ c ∈ (h.get n).children, ∃ t, Rep h t ∧ t.id = c := by
      intro c hc
      refine ih c ?_
      have b := f.bound _ _ hc
      have := hr _ _ ((f.agree _ _).1 hc)
      have := hB c b.1; omega
    obtain ⟨ts, e, r⟩ : ∃ ts : List RTree, ts.map RTree.id = (h.get n).children ∧
        ∀ t ∈ ts, Rep h t := by
      generalize (h.get n).children = cs at sub
      clear hk ih
      induction cs with
      | nil => exact ⟨[], rfl, by simp⟩
      | cons c cs ih =>
        obtain ⟨ts, e, r⟩ := ih fun c hc => sub c (by simp [hc])
        obtain ⟨t, rt, rfl⟩ := sub c (by simp)
        exact ⟨t :: ts, by simp [e], by simpa using ⟨rt, r⟩⟩
    exact ⟨.node n ts, .mk n ts e.symm r, rfl⟩

theorem Rep.pre_length_le {h : KHeap T} (f : Forest h) {t : RTree} (r : Rep h t) :
    t.pre.length ≤ h.next + 1 := by
  have sub : t.pre ⊆ t.id :: List.range h.next := by
    intro n hn
    rcases ((mem_pre_iff t r n).1 hn).lt_next f with e | e
    · simp [e]
    · simp [e]
  have := (List.subperm_of_subset (pre_nodup f t r) sub).length_le
  simpa using this

/-- lineages exist without cycles -/
theorem exists_lineage (h : KHeap T) (rank : NodeId → Nat)
    (hr : ∀ p c, liveParent h c = some p → rank p < rank c) (n : NodeId) :
    ∃ ps, Lineage h n ps := by
  suffices ∀ k n, rank n ≤ k → ∃ ps, Lineage h n ps from this _ n (Nat.le_refl _)
  intro k
  induction k with
  | zero =>
    intro n hk
    cases e : liveParent h n with
    | none => exact ⟨_, .root e⟩
    | some p => have := hr _ _ e; omega
  | succ k ih =>
    intro n hk
    cases e : liveParent h n with
    | none => exact ⟨_, .root e⟩
    | some p =>
      obtain ⟨ps, l⟩ := ih p (by have := hr _ _ e; omega)
      exact ⟨_, .step e l⟩

theorem Lineage.unique {h : KHeap T} {n : NodeId} {ps qs : List NodeId} (a : Lineage h n ps)
    (b : Lineage h n qs) : ps = qs := by
  induction a generalizing qs with
  | root e =>
    cases b with
    | root => rfl
    | step e' _ => rw [e] at e'; cases e'
  | step e _ ih =>
    cases b with
    | root e' => rw [e] at e'; cases e'
    | step e' l => rw [e] at e'; cases e'; rw [ih l]

theorem liveParent_eq_some {h : KHeap T} {c p : NodeId} (e : liveParent h c = some p) :
    (h.get c).parent = some p ∧ h.dead p = false := by
  unfold liveParent at e
  cases hp : (h.get c).parent with
  | none => simp [hp] at e
  | some q => simp [hp] at e; exact ⟨by rw [e.2], e.2 ▸ e.1⟩

theorem Lineage.rank {h : KHeap T} {rank : NodeId → Nat}
    (hr : ∀ p c, liveParent h c = some p → rank p < rank c) {n : NodeId} {ps : List NodeId}
    (l : Lineage h n ps) : ∀ m ∈ ps, rank m ≤ rank n := by
  induction l with
  | root e => simp
  | @step n p ps e l ih =>
    intro m hm
    rcases List.mem_cons.1 hm with rfl | hm
    · exact Nat.le_refl _
    · have := ih m hm; have := hr _ _ e; omega

theorem Lineage.nodup {h : KHeap T} {rank : NodeId → Nat}
    (hr : ∀ p c, liveParent h c = some p → rank p < rank c) {n : NodeId} {ps : List NodeId}
    (l : Lineage h n ps) : ps.Nodup := by
  induction l with
  | root e => simp
  | @step n p ps e l ih =>
    rw [List.nodup_cons]
    refine ⟨fun hm => ?_, ih⟩
    have := l.rank hr n hm; have := hr _ _ e; omega

end K
