import Verif.Model.Urdf
import Verif.Lemmas.Tree
import Verif.Props.Topology
/-!
# Building a chain from a robot description, phase by phase
-/

namespace K
namespace Urdf
open Prog
variable {F T : Type} [Scalar F] [Scalar T]

/-! ## phase 1: one node per joint -/

/-- allocate a node for every tag -/
def pushAll (conv : JointTag F → Joint T) : List (JointTag F) → KHeap T → KHeap T
  | [], h => h
  | j :: js, h => pushAll conv js (h.push (NodeImpl.fresh (conv j)))

/-- register the nodes `b, b+1, ...` -/
def addAll : Tables → List (JointTag F) → NodeId → Tables
  | t, [], _ => t
  | t, j :: js, b => addAll (t.add j b) js (b + 1)

theorem run_makeNodes (cv : F → T) (conv : JointTag F → Joint T) (js : List (JointTag F))
    (ok : ∀ j ∈ js, jointFrom cv j = .ok (conv j)) (t : Tables) (h : KHeap T) :
    run (makeNodes cv js t) h = .ok (addAll t js h.next) (pushAll conv js h) := by
  induction js generalizing t h with
  | nil => rfl
  | cons j js ih =>
    simp only [makeNodes, run_bind, ok j (by simp), run_ofExcept_ok, Res.bind_ok, run_Node_new]
    rw [ih (fun x hx => ok x (by simp [hx]))]
    rfl

theorem pushAll_next (conv : JointTag F → Joint T) (js : List (JointTag F)) (h : KHeap T) :
    (pushAll conv js h).next = h.next + js.length := by
  induction js generalizing h with
  | nil => rfl
  | cons j js ih => rw [pushAll, ih]; simp [Heap.push]; omega

theorem pushAll_held (conv : JointTag F → Joint T) (js : List (JointTag F)) (h : KHeap T) :
    (pushAll conv js h).held = h.held := by
  induction js generalizing h with
  | nil => rfl
  | cons j js ih => rw [pushAll, ih]; rfl

theorem pushAll_old (conv : JointTag F → Joint T) (js : List (JointTag F)) (h : KHeap T) (m : NodeId)
    (hm : m < h.next) : (pushAll conv js h).get m = h.get m ∧
      (pushAll conv js h).dead m = h.dead m := by
  induction js generalizing h with
  | nil => exact ⟨rfl, rfl⟩
  | cons j js ih =>
    obtain ⟨a, b⟩ := ih (h.push (NodeImpl.fresh (conv j))) (by simp [Heap.push]; omega)
    have : m ≠ h.next := by omega
    rw [pushAll, a, b]
    simp [Heap.push, this]

theorem pushAll_above (conv : JointTag F → Joint T) (js : List (JointTag F)) (h : KHeap T) (m : NodeId)
    (hm : h.next + js.length ≤ m) : (pushAll conv js h).get m = h.get m ∧
      (pushAll conv js h).dead m = h.dead m := by
  induction js generalizing h with
  | nil => exact ⟨rfl, rfl⟩
  | cons j js ih =>
    rw [List.length_cons] at hm
    obtain ⟨a, b⟩ := ih (h.push (NodeImpl.fresh (conv j))) (by simp [Heap.push]; omega)
    have : m ≠ h.next := by omega
    rw [pushAll, a, b]
    simp [Heap.push, this]

theorem pushAll_new (conv : JointTag F → Joint T) (js : List (JointTag F)) (h : KHeap T) (i : Nat)
    (x : JointTag F) (hx : js[i]? = some x) :
    (pushAll conv js h).get (h.next + i) = NodeImpl.fresh (conv x) ∧
      (pushAll conv js h).dead (h.next + i) = false := by
  induction js generalizing h i with
  | nil => simp at hx
  | cons j js ih =>
    cases i with
    | zero =>
      obtain ⟨a, b⟩ := pushAll_old conv js (h.push (NodeImpl.fresh (conv j))) h.next
        (by simp [Heap.push])
      simp only [List.getElem?_cons_zero, Option.some.injEq] at hx
      subst hx
      rw [pushAll, Nat.add_zero, a, b]
      simp [Heap.push]
    | succ i =>
      obtain ⟨a, b⟩ := ih (h.push (NodeImpl.fresh (conv j))) i (by simpa using hx)
      have e : (h.push (NodeImpl.fresh (conv j))).next + i = h.next + (i + 1) := by
        simp [Heap.push]; omega
      rw [e] at a b
      exact ⟨a, b⟩

theorem pushAll_links (conv : JointTag F → Joint T) (js : List (JointTag F)) (h : KHeap T)
    (fr : ∀ m, h.next ≤ m → (h.get m).parent = none ∧ (h.get m).children = []) (n : NodeId) :
    ((pushAll conv js h).get n).parent = (h.get n).parent ∧
      ((pushAll conv js h).get n).children = (h.get n).children := by
  induction js generalizing h with
  | nil => exact ⟨rfl, rfl⟩
  | cons j js ih =>
    have g : ∀ n, ((h.push (NodeImpl.fresh (conv j))).get n).parent = (h.get n).parent ∧
        ((h.push (NodeImpl.fresh (conv j))).get n).children = (h.get n).children := by
      intro n
      by_cases e : n = h.next
      · subst e
        obtain ⟨a, b⟩ := fr h.next (Nat.le_refl _)
        rw [a, b]; simp [Heap.push, NodeImpl.fresh]
      · simp [Heap.push, e]
    obtain ⟨a, b⟩ := ih (h.push (NodeImpl.fresh (conv j))) (fun m hm => by
      rw [(g m).1, (g m).2]; exact fr m (by simp [Heap.push] at hm; omega))
    rw [pushAll, a, b]
    exact g n

/-! ### the tables -/

theorem addAll_refNodes (t : Tables) (js : List (JointTag F)) (b : NodeId) :
    (addAll t js b).refNodes = t.refNodes ++ List.range' b js.length := by
  induction js generalizing t b with
  | nil => simp [addAll]
  | cons j js ih => rw [addAll, ih]; simp [Tables.add, List.range'_succ]

theorem addAll_child_other (t : Tables) (js : List (JointTag F)) (b : NodeId) (k : String)
    (hk : ∀ j ∈ js, j.childLink ≠ k) : (addAll t js b).childLinkToNode k = t.childLinkToNode k := by
  induction js generalizing t b with
  | nil => rfl
  | cons j js ih =>
    have : k ≠ j.childLink := fun e => hk j (by simp) e.symm
    rw [addAll, ih _ _ (fun x hx => hk x (by simp [hx]))]
    simp [Tables.add, SMap.insert, this]

theorem addAll_child (t : Tables) (js : List (JointTag F)) (b : NodeId)
    (nd : (js.map (·.childLink)).Nodup) (i : Nat) (x : JointTag F) (hx : js[i]? = some x) :
    (addAll t js b).childLinkToNode x.childLink = some (b + i) := by
  induction js generalizing t b i with
  | nil => simp at hx
  | cons j js ih =>
    rw [List.map_cons, List.nodup_cons] at nd
    cases i with
    | zero =>
      simp only [List.getElem?_cons_zero, Option.some.injEq] at hx
      subst hx
      rw [addAll, addAll_child_other]
      · simp [Tables.add, SMap.insert]
      · exact fun y hy e => nd.1 (e ▸ List.mem_map_of_mem hy)
    | succ i =>
      rw [addAll, ih _ _ nd.2 i (by simpa using hx)]
      congr 1; omega

theorem addAll_name_other (t : Tables) (js : List (JointTag F)) (b : NodeId) (k : String)
    (hk : ∀ j ∈ js, j.name ≠ k) : (addAll t js b).jointNameToNode k = t.jointNameToNode k := by
  induction js generalizing t b with
  | nil => rfl
  | cons j js ih =>
    have : k ≠ j.name := fun e => hk j (by simp) e.symm
    rw [addAll, ih _ _ (fun x hx => hk x (by simp [hx]))]
    simp [Tables.add, SMap.insert, this]

theorem addAll_name (t : Tables) (js : List (JointTag F)) (b : NodeId)
    (nd : (js.map (·.name)).Nodup) (i : Nat) (x : JointTag F) (hx : js[i]? = some x) :
    (addAll t js b).jointNameToNode x.name = some (b + i) := by
  induction js generalizing t b i with
  | nil => simp at hx
  | cons j js ih =>
    rw [List.map_cons, List.nodup_cons] at nd
    cases i with
    | zero =>
      simp only [List.getElem?_cons_zero, Option.some.injEq] at hx
      subst hx
      rw [addAll, addAll_name_other]
      · simp [Tables.add, SMap.insert]
      · exact fun y hy e => nd.1 (e ▸ List.mem_map_of_mem hy)
    | succ i =>
      rw [addAll, ih _ _ nd.2 i (by simpa using hx)]
      congr 1; omega

/-- the nodes registered for parent link `k` -/
def Tables.kids (t : Tables) (k : String) : List NodeId := (t.parentLinkToNodes k).getD []

theorem add_kids (t : Tables) (j : JointTag F) (b : NodeId) (k : String) :
    (t.add j b).kids k = if j.parentLink = k then t.kids k ++ [b] else t.kids k := by
  unfold Tables.kids Tables.add
  by_cases e : j.parentLink = k
  · subst e
    cases h : t.parentLinkToNodes j.parentLink <;> simp [SMap.insert]
  · have e' : k ≠ j.parentLink := fun x => e x.symm
    cases h : t.parentLinkToNodes j.parentLink <;> simp [SMap.insert, e, e']

theorem addAll_kids (t : Tables) (js : List (JointTag F)) (b : NodeId) (k : String)
    (node : String → NodeId) (hn : ∀ (i : Nat) x, js[i]? = some x → node x.name = b + i) :
    (addAll t js b).kids k =
      t.kids k ++ (js.filter fun x => decide (x.parentLink = k)).map fun x => node x.name := by
  induction js generalizing t b with
  | nil => simp [addAll]
  | cons j js ih =>
    rw [addAll, ih (t.add j b) (b + 1) (fun i x hx => by
      rw [hn (i + 1) x (by simpa using hx)]; omega), add_kids]
    have h0 : node j.name = b := by simpa using hn 0 j rfl
    by_cases e : j.parentLink = k
    · rw [if_pos e, List.filter_cons_of_pos (by simpa using e)]; simp [h0]
    · rw [if_neg e, List.filter_cons_of_neg (by simpa using e)]

theorem mem_addAll_kids (t : Tables) (js : List (JointTag F)) (b : NodeId) (k : String) (n : NodeId) :
    n ∈ (addAll t js b).kids k ↔
      n ∈ t.kids k ∨ ∃ i x, js[i]? = some x ∧ x.parentLink = k ∧ n = b + i := by
  induction js generalizing t b with
  | nil => simp [addAll]
  | cons j js ih =>
    rw [addAll, ih, add_kids]
    constructor
    · rintro (h | ⟨i, x, a, b', c⟩)
      · split at h
        · rename_i e
          rcases List.mem_append.1 h with h | h
          · exact .inl h
          · exact .inr ⟨0, j, rfl, e, by simpa using h⟩
        · exact .inl h
      · exact .inr ⟨i + 1, x, by simpa using a, b', by omega⟩
    · rintro (h | ⟨i, x, a, b', c⟩)
      · left; split
        · exact List.mem_append.2 (.inl h)
        · exact h
      · cases i with
        | zero =>
          simp only [List.getElem?_cons_zero, Option.some.injEq] at a
          subst a
          left; rw [if_pos b']; simp [c]
        | succ i => exact .inr ⟨i, x, by simpa using a, b', by omega⟩

theorem addAll_kids_nodup (t : Tables) (js : List (JointTag F)) (b : NodeId) (k : String)
    (nd : (t.kids k).Nodup) (lt : ∀ n ∈ t.kids k, n < b) : ((addAll t js b).kids k).Nodup := by
  induction js generalizing t b with
  | nil => exact nd
  | cons j js ih =>
    refine ih _ _ ?_ ?_ <;> rw [add_kids] <;> split
    · refine List.nodup_append.2 ⟨nd, by simp, ?_⟩
      intro a ha c hc e
      simp only [List.mem_singleton] at hc
      have := lt a ha
      omega
    · exact nd
    · intro n hn
      rcases List.mem_append.1 hn with h | h
      · have := lt n h; omega
      · simp only [List.mem_singleton] at h; omega
    · intro n hn; have := lt n hn; omega

/-! ## phases 2 to 4: edges -/

/-- what all later phases keep: the nodes from `B` on form a growing forest in which `rk` increases
from parent to child; older nodes, joints and allocation are as in `h0` -/
structure Growing (B : NodeId) (rk : NodeId → Nat) (h0 h : KHeap T) : Prop where
  forest : Forest h
  unlocked : h.Unlocked
  next : h.next = h0.next
  dead : h.dead = h0.dead
  closed : ∀ n p, B ≤ p → (h.get n).parent = some p → B ≤ n ∧ rk p < rk n
  old : ∀ m, m < B ∨ h0.next ≤ m → h.get m = h0.get m
  joint : ∀ m, (h.get m).joint = (h0.get m).joint

theorem Growing.below {B : NodeId} {rk : NodeId → Nat} {h0 h : KHeap T} (g : Growing B rk h0 h)
    {a n : NodeId} (ha : B ≤ a) (b : Below h a n) : B ≤ n ∧ rk a ≤ rk n := by
  induction b with
  | refl => exact ⟨ha, Nat.le_refl _⟩
  | @step p n b c ih =>
    obtain ⟨x, y⟩ := g.closed n p ih.1 ((g.forest.agree p n).1 c)
    exact ⟨x, by omega⟩

/-- the mimic rule and the followers of a node -/
def _root_.K.NodeImpl.tie (s : NodeImpl T) : Option (Mimic T) × List NodeId := (s.mimic, s.mimicChildren)

/-- one `set_parent` -/
theorem Growing.attach {B : NodeId} {rk : NodeId → Nat} {h0 h : KHeap T} (g : Growing B rk h0 h)
    {c p : NodeId} (hc : B ≤ c) (hp : B ≤ p) (hc' : c < h.next) (hp' : p < h.next)
    (root : (h.get c).parent = none) (lt : rk p < rk c) :
    ∃ h', run (Node.setParent c p) h = .ok () h' ∧ Growing B rk h0 h' ∧
      (∀ n, (h'.get n).parent = if n = c then some p else (h.get n).parent) ∧
      (∀ n, (h'.get n).link = (h.get n).link ∧ (h'.get n).mimicParent = (h.get n).mimicParent ∧
        (h'.get n).tie = (h.get n).tie) ∧
      (∀ n, (h'.get n).children = if n = p then (h.get n).children ++ [c] else (h.get n).children) := by
  have ne : p ≠ c := by rintro rfl; omega
  have par : ∀ n, (((h.modify c fun s => { s with parent := some p }).modify p
      fun s => { s with children := s.children ++ [c] }).get n).parent =
      if n = c then some p else (h.get n).parent := by
    intro n
    simp only [Heap.get_modify]
    split
    · rename_i e; subst e; simp [ne]
    · split <;> simp_all
  refine ⟨_, run_Node_setParent c p h g.unlocked, ⟨?_, ?_, g.next, g.dead, ?_, ?_, ?_⟩, par, ?_, ?_⟩
  · refine g.forest.attach hc' hp' root ?_
    intro b
    have := (g.below hc b).2
    omega
  · exact (g.unlocked.modify _ _).modify _ _
  · intro n q hq e
    rw [par] at e
    split at e
    · rename_i e'; subst e'; cases e; exact ⟨hc, lt⟩
    · exact g.closed n q hq e
  · intro m hm
    have := g.next
    rw [Heap.get_modify_of_ne _ _ (by omega), Heap.get_modify_of_ne _ _ (by omega), g.old m hm]
  · intro m
    rw [← g.joint m]
    simp only [Heap.get_modify]
    split <;> split <;> rfl
  · intro m
    simp only [Heap.get_modify]
    split <;> split <;> exact ⟨rfl, rfl, rfl⟩
  · intro m
    simp only [Heap.get_modify]
    split
    · rename_i e; subst e; simp [ne]
    · split <;> rfl

/-- `set_parent` on a list of nodes -/
theorem Growing.attachAll {B : NodeId} {rk : NodeId → Nat} {h0 h : KHeap T} (g : Growing B rk h0 h)
    {p : NodeId} (hp : B ≤ p) (hp' : p < h.next) (cs : List NodeId) (nd : cs.Nodup)
    (hc : ∀ c ∈ cs, B ≤ c ∧ c < h.next ∧ (h.get c).parent = none ∧ rk p < rk c) :
    ∃ h', run (forEach cs fun c => Node.setParent c p) h = .ok () h' ∧ Growing B rk h0 h' ∧
      (∀ n, (h'.get n).parent = if n ∈ cs then some p else (h.get n).parent) ∧
      (∀ n, (h'.get n).link = (h.get n).link ∧ (h'.get n).mimicParent = (h.get n).mimicParent ∧
        (h'.get n).tie = (h.get n).tie) ∧
      (∀ n, (h'.get n).children = if n = p then (h.get n).children ++ cs else (h.get n).children) := by
  induction cs generalizing h with
  | nil => exact ⟨h, rfl, g, by simp, fun _ => ⟨rfl, rfl, rfl⟩, by simp⟩
  | cons c cs ih =>
    obtain ⟨a1, a2, a3, a4⟩ := hc c (by simp)
    obtain ⟨h1, r1, g1, p1, l1, k1⟩ := g.attach a1 hp a2 hp' a3 a4
    rw [List.nodup_cons] at nd
    have n1 : h1.next = h.next := g1.next.trans g.next.symm
    obtain ⟨h2, r2, g2, p2, l2, k2⟩ := ih g1 (by rw [n1]; exact hp') nd.2 (fun x hx => by
      obtain ⟨b1, b2, b3, b4⟩ := hc x (by simp [hx])
      refine ⟨b1, by rw [n1]; exact b2, ?_, b4⟩
      rw [p1, if_neg (by rintro rfl; exact nd.1 hx), b3])
    refine ⟨h2, ?_, g2, fun n => ?_, fun n => ?_, fun n => ?_⟩
    · rw [run_forEach_cons, r1, Res.bind_ok, r2]
    · rw [p2, p1]
      by_cases e : n = c
      · subst e; simp
      · simp [e]
    · obtain ⟨x, y, z⟩ := l1 n
      obtain ⟨x', y', z'⟩ := l2 n
      exact ⟨x'.trans x, y'.trans y, z'.trans z⟩
    · rw [k2, k1]
      split <;> simp

/-- a write that touches neither the tree nor the joint -/
theorem Growing.other {B : NodeId} {rk : NodeId → Nat} {h0 h h' : KHeap T} (g : Growing B rk h0 h)
    (next : h'.next = h.next) (dead : h'.dead = h.dead) (held : h'.held = h.held)
    (tree : ∀ n, (h'.get n).parent = (h.get n).parent ∧ (h'.get n).children = (h.get n).children)
    (joint : ∀ n, (h'.get n).joint = (h.get n).joint) 
    (old : ∀ n, n < B ∨ h0.next ≤ n → h'.get n = h.get n) :
    Growing B rk h0 h' where
  forest := g.forest.frame (by omega) tree
  unlocked n := by rw [held]; exact g.unlocked n
  next := next.trans g.next
  dead := dead.trans g.dead
  closed n p hp e := g.closed n p hp ((tree n).1 ▸ e)
  old m hm := (old m hm).trans (g.old m hm)
  joint m := (joint m).trans (g.joint m)

/-- one `set_link` -/
theorem Growing.setLink {B : NodeId} {rk : NodeId → Nat} {h0 h : KHeap T} (g : Growing B rk h0 h)
    {p : NodeId} (hp : B ≤ p) (hp' : p < h.next) (l : Option (Link T)) :
    ∃ h', run (Node.setLink p l) h = .ok () h' ∧ Growing B rk h0 h' ∧
      (∀ n, (h'.get n).link = if n = p then l else (h.get n).link) ∧
      (∀ n, (h'.get n).parent = (h.get n).parent ∧ (h'.get n).mimicParent = (h.get n).mimicParent ∧
        (h'.get n).tie = (h.get n).tie) ∧ (∀ n, (h'.get n).children = (h.get n).children) := by
  refine ⟨_, run_Node_setLink p l h (g.unlocked p), g.other rfl rfl rfl ?_ ?_ ?_, ?_, ?_, ?_⟩
  · intro n; simp only [Heap.get_modify]; split <;> exact ⟨rfl, rfl⟩
  · intro n; simp only [Heap.get_modify]; split <;> rfl
  · intro n hn; have := g.next; exact Heap.get_modify_of_ne _ _ (by omega)
  · intro n; simp only [Heap.get_modify]; split <;> rfl
  · intro n; simp only [Heap.get_modify]; split <;> exact ⟨rfl, rfl, rfl⟩
  · intro n; simp only [Heap.get_modify]; split <;> rfl

/-- the loop over the links -/
theorem Growing.connect {B : NodeId} {rk : NodeId → Nat} {h0 h : KHeap T} (g : Growing B rk h0 h)
    (cv : F → T) (t : Tables) (root : NodeId) (hroot : B ≤ root) (hroot' : root < h.next)
    (ls : List (LinkTag F))
    (nd : (ls.map (·.name)).Nodup)
    (kidsNd : ∀ l ∈ ls, (t.kids l.name).Nodup)
    (kidsDisj : ∀ l ∈ ls, ∀ l' ∈ ls, ∀ n, n ∈ t.kids l.name → n ∈ t.kids l'.name → l.name = l'.name)
    (target : ∀ l ∈ ls, ∀ p, t.childLinkToNode l.name = some p → B ≤ p ∧ p < h.next ∧ p ≠ root ∧
      ∀ c ∈ t.kids l.name, B ≤ c ∧ c < h.next ∧ (h.get c).parent = none ∧ rk p < rk c)
    (inj : ∀ l ∈ ls, ∀ l' ∈ ls, ∀ p, t.childLinkToNode l.name = some p →
      t.childLinkToNode l'.name = some p → l.name = l'.name) :
    ∃ h', run (forEach ls (connectLink cv t root)) h = .ok () h' ∧ Growing B rk h0 h' ∧
      (∀ l ∈ ls, ∀ p, t.childLinkToNode l.name = some p →
        (h'.get p).link = some (linkFrom cv l) ∧
        ∀ c ∈ t.kids l.name, (h'.get c).parent = some p) ∧
      (∀ n, (∀ l ∈ ls, ∀ p, t.childLinkToNode l.name = some p → n ∉ t.kids l.name) →
        (h'.get n).parent = (h.get n).parent) ∧
      (∀ n, n ≠ root → (∀ l ∈ ls, t.childLinkToNode l.name ≠ some n) →
        (h'.get n).link = (h.get n).link) ∧
      (∀ l ∈ ls, t.childLinkToNode l.name = none →
        (∀ l' ∈ ls, t.childLinkToNode l'.name = none → l' = l) →
        (h'.get root).link = some (linkFrom cv l)) ∧
      ((∀ l ∈ ls, t.childLinkToNode l.name ≠ none) → (h'.get root).link = (h.get root).link) ∧
      (∀ n, (h'.get n).mimicParent = (h.get n).mimicParent ∧ (h'.get n).tie = (h.get n).tie) ∧
      (∀ l ∈ ls, ∀ p, t.childLinkToNode l.name = some p →
        (h'.get p).children = (h.get p).children ++ t.kids l.name) ∧
      (∀ n, (∀ l ∈ ls, t.childLinkToNode l.name ≠ some n) → (h'.get n).children = (h.get n).children) := by
  induction ls generalizing h with
  | nil =>
    exact ⟨h, rfl, g, fun _ hl => absurd hl (List.not_mem_nil), fun _ _ => rfl, fun _ _ _ => rfl,
      fun _ hl => absurd hl (List.not_mem_nil), fun _ => rfl, fun _ => ⟨rfl, rfl⟩,
      fun _ hl => absurd hl (List.not_mem_nil), fun _ _ => rfl⟩
  | cons l ls ih =>
    rw [List.map_cons, List.nodup_cons] at nd
    have hne : ∀ l' ∈ ls, l'.name ≠ l.name := fun l' hl' e => nd.1 (e ▸ List.mem_map_of_mem hl')
    cases ec : t.childLinkToNode l.name with
    | none =>
      obtain ⟨h1, r1, g1, lk1, o1, k1⟩ := g.setLink hroot hroot' (some (linkFrom cv l))
      have n1 : h1.next = h.next := g1.next.trans g.next.symm
      have r1' : run (connectLink cv t root l) h = .ok () h1 := by
        simp only [connectLink, ec]; exact r1
      obtain ⟨h2, r2, g2, a, b, c, d, e, f, k2, k2'⟩ := ih g1 (by rw [n1]; exact hroot') nd.2 (fun x hx => kidsNd x (by simp [hx]))
        (fun x hx y hy => kidsDisj x (by simp [hx]) y (by simp [hy]))
        (fun x hx p hp => by
          obtain ⟨b1, b2, b3, b4⟩ := target x (by simp [hx]) p hp
          refine ⟨b1, by rw [n1]; exact b2, b3, fun c hc => ?_⟩
          obtain ⟨c1, c2, c3, c4⟩ := b4 c hc
          exact ⟨c1, by rw [n1]; exact c2, by rw [(o1 c).1]; exact c3, c4⟩)
        (fun x hx y hy => inj x (by simp [hx]) y (by simp [hy]))
      refine ⟨h2, by rw [run_forEach_cons, r1', Res.bind_ok, r2], g2, ?_, ?_, ?_, ?_, ?_, ?_, ?_, ?_⟩
      · intro x hx p hp
        rcases List.mem_cons.1 hx with rfl | hx
        · rw [ec] at hp; cases hp
        · exact a x hx p hp
      · intro n hn
        rw [b n (fun x hx => hn x (by simp [hx])), (o1 n).1]
      · intro n hn hl
        rw [c n hn (fun x hx => hl x (by simp [hx])), lk1, if_neg hn]
      · intro x hx hp un
        rcases List.mem_cons.1 hx with rfl | hx
        · rw [e (fun y hy z => ?_), lk1, if_pos rfl]
          have := un y (by simp [hy]) z
          exact hne y hy (by rw [this])
        · have := un l (by simp) ec
          exact absurd (by rw [this]) (hne x hx)
      · intro hl; exact absurd ec (hl l (by simp))
      · intro n
        obtain ⟨x, y⟩ := f n
        exact ⟨x.trans (o1 n).2.1, y.trans (o1 n).2.2⟩
      · intro x hx p hp
        rcases List.mem_cons.1 hx with rfl | hx
        · rw [ec] at hp; cases hp
        · rw [k2 x hx p hp, k1]
      · intro n hn
        rw [k2' n fun x hx => hn x (by simp [hx]), k1]
    | some p =>
      obtain ⟨b1, b2, b3, b4⟩ := target l (by simp) p ec
      obtain ⟨h1, r1, g1, p1, o1, k1⟩ := g.attachAll b1 b2 (t.kids l.name) (kidsNd l (by simp)) b4
      obtain ⟨h2, r2, g2, lk2, o2, k2⟩ := g1.setLink b1 (by rw [g1.next, ← g.next]; exact b2) (some (linkFrom cv l))
      have n2 : h2.next = h.next := g2.next.trans g.next.symm
      have r12 : run (connectLink cv t root l) h = .ok () h2 := by
        simp only [connectLink, ec]
        cases ek : t.parentLinkToNodes l.name with
        | none =>
          have : t.kids l.name = [] := by simp [Tables.kids, ek]
          rw [this] at r1
          cases r1
          simp only [run_bind, run_pure, Res.bind_ok]
          exact r2
        | some cs =>
          have : t.kids l.name = cs := by simp [Tables.kids, ek]
          rw [this] at r1
          simp only [run_bind, r1, Res.bind_ok]
          exact r2
      have par2 : ∀ n, (h2.get n).parent = if n ∈ t.kids l.name then some p else (h.get n).parent :=
        fun n => (o2 n).1.trans (p1 n)
      obtain ⟨h3, r3, g3, a, b, c, d, e, f, k3, k3'⟩ := ih g2 (by rw [n2]; exact hroot') nd.2 (fun x hx => kidsNd x (by simp [hx]))
        (fun x hx y hy => kidsDisj x (by simp [hx]) y (by simp [hy]))
        (fun x hx q hq => by
          obtain ⟨b1, b2, b3, b4⟩ := target x (by simp [hx]) q hq
          refine ⟨b1, by rw [n2]; exact b2, b3, fun c hc => ?_⟩
          obtain ⟨c1, c2, c3, c4⟩ := b4 c hc
          refine ⟨c1, by rw [n2]; exact c2, ?_, c4⟩
          rw [par2, if_neg, c3]
          exact fun hm => hne x hx (kidsDisj x (by simp [hx]) l (by simp) c hc hm))
        (fun x hx y hy => inj x (by simp [hx]) y (by simp [hy]))
      have keepLink : ∀ n, n ≠ p → (h2.get n).link = (h.get n).link := by
        intro n hn; rw [lk2, if_neg hn, (o1 n).1]
      refine ⟨h3, by rw [run_forEach_cons, r12, Res.bind_ok, r3], g3, ?_, ?_, ?_, ?_, ?_, ?_, ?_, ?_⟩
      · intro x hx q hq
        rcases List.mem_cons.1 hx with rfl | hx
        · rw [ec] at hq; cases hq
          refine ⟨?_, fun n hn => ?_⟩
          · rw [c p b3 (fun y hy z => hne y hy (inj y (by simp [hy]) x (by simp) p z ec)), lk2,
              if_pos rfl]
          · rw [b n (fun y hy q hq hm =>
              hne y hy (kidsDisj y (by simp [hy]) x (by simp) n hm hn)), par2, if_pos hn]
        · exact a x hx q hq
      · intro n hn
        rw [b n (fun x hx => hn x (by simp [hx])), par2, if_neg (hn l (by simp) p ec)]
      · intro n hn hl
        rw [c n hn (fun x hx => hl x (by simp [hx])), keepLink]
        rintro rfl; exact hl l (by simp) ec
      · intro x hx hp un
        rcases List.mem_cons.1 hx with rfl | hx
        · rw [ec] at hp; cases hp
        · exact d x hx hp (fun y hy => un y (by simp [hy]))
      · intro hl
        rw [e (fun x hx => hl x (by simp [hx])), keepLink _ (fun e => b3 e.symm)]
      · intro n
        obtain ⟨x, y⟩ := f n
        exact ⟨x.trans ((o2 n).2.1.trans (o1 n).2.1), y.trans ((o2 n).2.2.trans (o1 n).2.2)⟩
      · intro x hx q hq
        rcases List.mem_cons.1 hx with rfl | hx
        · rw [ec] at hq; cases hq
          rw [k3' p fun y hy z => hne y hy (inj y (by simp [hy]) x (by simp) p z ec), k2, k1, if_pos rfl]
        · rw [k3 x hx q hq, k2, k1, if_neg]
          rintro rfl
          exact hne x hx (inj x (by simp [hx]) l (by simp) q hq ec)
      · intro n hn
        rw [k3' n fun x hx => hn x (by simp [hx]), k2, k1, if_neg]
        rintro rfl
        exact hn l (by simp) ec

/-- the loop over the mimic tags -/
theorem Growing.mimics {B : NodeId} {rk : NodeId → Nat} {h0 h : KHeap T} (g : Growing B rk h0 h)
    (cv : F → T) (t : Tables) (js : List (JointTag F)) (nd : (js.map (·.name)).Nodup)
    (node : String → NodeId) (own : ∀ j ∈ js, t.jointNameToNode j.name = some (node j.name))
    (new : ∀ j ∈ js, B ≤ node j.name ∧ node j.name < h.next)
    (injN : ∀ j ∈ js, ∀ j' ∈ js, node j.name = node j'.name → j.name = j'.name)
    (masters : ∀ j ∈ js, ∀ m, j.mimic = some m →
      t.jointNameToNode m.joint = some (node m.joint) ∧ B ≤ node m.joint ∧ node m.joint < h.next) :
    ∃ h', run (forEach js (addMimic cv t)) h = .ok () h' ∧ Growing B rk h0 h' ∧
      (∀ n, (h'.get n).parent = (h.get n).parent ∧ (h'.get n).link = (h.get n).link ∧
        (h'.get n).children = (h.get n).children) ∧
      (∀ j ∈ js, ∀ m, j.mimic = some m → (h'.get (node j.name)).mimicParent = some (node m.joint) ∧
        (h'.get (node j.name)).mimic = some (mimicFrom cv m)) ∧
      (∀ n, (∀ j ∈ js, j.mimic.isSome → n ≠ node j.name) →
        (h'.get n).mimicParent = (h.get n).mimicParent ∧ (h'.get n).mimic = (h.get n).mimic) ∧
      (∀ n, (h'.get n).mimicChildren = (h.get n).mimicChildren ++
        (js.filter fun j => j.mimic.map (fun m => node m.joint) == some n).map (node ·.name)) := by
  induction js generalizing h with
  | nil => exact ⟨h, rfl, g, fun _ => ⟨rfl, rfl, rfl⟩, fun _ hl => absurd hl (List.not_mem_nil),
      fun _ _ => ⟨rfl, rfl⟩, fun _ => by simp⟩
  | cons j js ih =>
    rw [List.map_cons, List.nodup_cons] at nd
    have hne : ∀ x ∈ js, x.name ≠ j.name := fun x hx e => nd.1 (e ▸ List.mem_map_of_mem hx)
    cases em : j.mimic with
    | none =>
      obtain ⟨h1, r1, g1, a, b, c, d⟩ := ih g nd.2 (fun x hx => own x (by simp [hx]))
        (fun x hx => new x (by simp [hx])) (fun x hx y hy => injN x (by simp [hx]) y (by simp [hy]))
        (fun x hx => masters x (by simp [hx]))
      have r : run (addMimic cv t j) h = .ok () h := by simp only [addMimic, em]; rfl
      refine ⟨h1, by rw [run_forEach_cons, r, Res.bind_ok, r1], g1, a, ?_, ?_, ?_⟩
      · intro x hx m hm
        rcases List.mem_cons.1 hx with rfl | hx
        · rw [em] at hm; cases hm
        · exact b x hx m hm
      · intro n hn; exact c n (fun x hx => hn x (by simp [hx]))
      · intro n; rw [d n, List.filter_cons_of_neg (by simp [em])]
    | some m =>
      obtain ⟨ms1, ms2, ms3⟩ := masters j (by simp) m em
      obtain ⟨nj, nj'⟩ := new j (by simp)
      have gn := g.next
      have r : run (addMimic cv t j) h = .ok () (((h.modify (node j.name)
          fun s => { s with mimicParent := some (node m.joint) }).modify (node m.joint)
          fun s => { s with mimicChildren := s.mimicChildren ++ [node j.name] }).modify (node j.name)
          fun s => { s with mimic := some (mimicFrom cv m) }) := by
        simp only [addMimic, em, own j (by simp), ms1, run_bind, run_expect_some, Res.bind_ok]
        exact run_Node_setMimicParent _ _ _ _ g.unlocked
      have g1 := g.other (h' := ((h.modify (node j.name)
          fun s => { s with mimicParent := some (node m.joint) }).modify (node m.joint)
          fun s => { s with mimicChildren := s.mimicChildren ++ [node j.name] }).modify (node j.name)
          fun s => { s with mimic := some (mimicFrom cv m) }) rfl rfl rfl
        (fun n => by simp only [Heap.get_modify]; split <;> split <;> exact ⟨rfl, rfl⟩)
        (fun n => by simp only [Heap.get_modify]; split <;> split <;> rfl)
        (fun n hn => by
          rw [Heap.get_modify_of_ne _ _ (by omega), Heap.get_modify_of_ne _ _ (by omega),
            Heap.get_modify_of_ne _ _ (by omega)])
      obtain ⟨h1, r1, g1, a, b, c, d⟩ := ih g1 nd.2 (fun x hx => own x (by simp [hx]))
        (fun x hx => new x (by simp [hx])) (fun x hx y hy => injN x (by simp [hx]) y (by simp [hy]))
        (fun x hx => masters x (by simp [hx]))
      refine ⟨h1, by rw [run_forEach_cons, r, Res.bind_ok, r1], g1, ?_, ?_, ?_, ?_⟩
      · intro n
        rw [(a n).1, (a n).2.1, (a n).2.2]
        simp only [Heap.get_modify]; split <;> split <;> exact ⟨rfl, rfl, rfl⟩
      · intro x hx m' hm
        rcases List.mem_cons.1 hx with rfl | hx
        · rw [em] at hm; cases hm
          obtain ⟨u, v⟩ := c (node x.name) (fun y hy _ e =>
            hne y hy (injN y (by simp [hy]) x (by simp) e.symm))
          rw [u, v]
          simp only [Heap.get_modify, if_true]
          split <;> simp
        · exact b x hx m' hm
      · intro n hn
        obtain ⟨u, v⟩ := c n (fun x hx => hn x (by simp [hx]))
        have : n ≠ node j.name := hn j (by simp) (by simp [em])
        rw [u, v]
        simp only [Heap.get_modify, this, if_false]
        split <;> exact ⟨rfl, rfl⟩
      · intro n
        rw [d n]
        by_cases e : node m.joint = n
        · rw [List.filter_cons_of_pos (by simp [em, e]), List.map_cons]
          subst e
          have e1 : ∀ (a : List NodeId) b c, a ++ b :: c = (a ++ [b]) ++ c := by simp
          rw [e1]
          congr 1
          simp only [Heap.get_modify, if_true]
          split <;> rfl
        · rw [List.filter_cons_of_neg (by simp [em, e])]
          have e' : ¬ n = node m.joint := fun z => e z.symm
          simp only [Heap.get_modify, e', if_false]
          split <;> rfl

/-- the last loop: nodes without a parent go below the synthetic root -/
theorem Growing.roots {B : NodeId} {rk : NodeId → Nat} {h0 h : KHeap T} (g : Growing B rk h0 h)
    {root : NodeId} (hroot : B ≤ root) (hroot' : root < h.next) (cs : List NodeId) (nd : cs.Nodup)
    (hc : ∀ c ∈ cs, B ≤ c ∧ c < h.next ∧ rk root < rk c)
    (live : ∀ c ∈ cs, ∀ p, (h.get c).parent = some p → h.dead p = false) :
    ∃ h', run (forEach cs (attachRoot root)) h = .ok () h' ∧ Growing B rk h0 h' ∧
      (∀ n, (h'.get n).parent =
        if n ∈ cs ∧ (h.get n).parent = none then some root else (h.get n).parent) ∧
      (∀ n, (h'.get n).link = (h.get n).link ∧ (h'.get n).mimicParent = (h.get n).mimicParent ∧
        (h'.get n).tie = (h.get n).tie) ∧
      (∀ n, (h'.get n).children = if n = root then (h.get n).children ++ cs.filter fun c => (h.get c).parent.isNone
        else (h.get n).children) := by
  induction cs generalizing h with
  | nil => exact ⟨h, rfl, g, by simp, fun _ => ⟨rfl, rfl, rfl⟩, by simp⟩
  | cons c cs ih =>
    rw [List.nodup_cons] at nd
    obtain ⟨a1, a2, a3⟩ := hc c (by simp)
    cases ep : (h.get c).parent with
    | some p =>
      have r : run (attachRoot root c) h = .ok () h := by
        simp [attachRoot, run_Node_parent _ _ (g.unlocked c), ep, upgradeOpt,
          live c (by simp) p ep]
      obtain ⟨h1, r1, g1, p1, l1, k1⟩ := ih g hroot' nd.2 (fun x hx => hc x (by simp [hx]))
        (fun x hx => live x (by simp [hx]))
      refine ⟨h1, by rw [run_forEach_cons, r, Res.bind_ok, r1], g1, fun n => ?_, l1, fun n => ?_⟩
      · rw [p1]
        by_cases e : n = c
        · subst e; simp [ep]
        · simp [e]
      · rw [k1, List.filter_cons_of_neg (by simp [ep])]
    | none =>
      obtain ⟨h1, r1, g1, p1, l1, k1⟩ := g.attach a1 hroot a2 hroot' ep a3
      have n1 : h1.next = h.next := g1.next.trans g.next.symm
      have r : run (attachRoot root c) h = .ok () h1 := by
        simp [attachRoot, run_Node_parent _ _ (g.unlocked c), ep, upgradeOpt, r1]
      obtain ⟨h2, r2, g2, p2, l2, k2⟩ := ih g1 (by rw [n1]; exact hroot') nd.2
        (fun x hx => by rw [n1]; exact hc x (by simp [hx]))
        (fun x hx p hp => by
          rw [p1, if_neg (by rintro rfl; exact nd.1 hx)] at hp
          rw [g1.dead, ← g.dead]; exact live x (by simp [hx]) p hp)
      refine ⟨h2, by rw [run_forEach_cons, r, Res.bind_ok, r2], g2, fun n => ?_, fun n => ?_, fun n => ?_⟩
      · rw [p2, p1]
        by_cases e : n = c
        · subst e; simp [ep]
        · simp [e]
      · obtain ⟨x, y, z⟩ := l1 n
        obtain ⟨x', y', z'⟩ := l2 n
        exact ⟨x'.trans x, y'.trans y, z'.trans z⟩
      · rw [k2, k1, List.filter_cons_of_pos (by simp [ep])]
        have : (cs.filter fun c => (h1.get c).parent.isNone) = cs.filter fun c => (h.get c).parent.isNone := by
          refine List.filter_congr fun x hx => ?_
          rw [p1, if_neg (by rintro rfl; exact nd.1 hx)]
        rw [this]
        split <;> simp

end Urdf
end K
