import Verif.Spec.Urdf
import Verif.Lemmas.Urdf
import Verif.Props.Traverse
import Verif.Props.UrdfJoint
/-!
# C32: the chain of a robot description
-/

namespace K
namespace Urdf
open Prog
variable {F T : Type} [Scalar F] [Scalar T]

private theorem idxOf_name {js : List (JointTag F)} (nd : (js.map (·.name)).Nodup) {i : Nat}
    {x : JointTag F} (hx : js[i]? = some x) : (js.map (·.name)).idxOf x.name = i := by
  obtain ⟨hi, e⟩ := List.getElem?_eq_some_iff.1 hx
  have hi' : i < (js.map (·.name)).length := by simpa using hi
  have : (js.map (·.name))[i] = x.name := by simp [e]
  rw [← this]
  exact nd.idxOf_getElem i hi'

private theorem count_range (js : List (JointTag F)) (b : NodeId) (q : NodeId → Bool)
    (P : JointTag F → Bool) (h : ∀ i x, js[i]? = some x → q (b + i) = P x) :
    ((List.range' b js.length).filter q).length = (js.filter P).length := by
  induction js generalizing b with
  | nil => rfl
  | cons j js ih =>
    have h0 := h 0 j rfl
    have := ih (b + 1) (fun i x hx => by rw [← h (i + 1) x (by simpa using hx)]; congr 1; omega)
    rw [List.length_cons, List.range'_succ, List.filter_cons, List.filter_cons]
    rw [Nat.add_zero] at h0
    rw [h0]
    split <;> simp [this]

private theorem tie1 {s s' : NodeImpl T} (e : s.tie = s'.tie) : s.mimic = s'.mimic :=
  congrArg Prod.fst e
private theorem tie2 {s s' : NodeImpl T} (e : s.tie = s'.tie) : s.mimicChildren = s'.mimicChildren :=
  congrArg Prod.snd e

/-- the nodes of `Chain::from_root` are those of the tree below the root -/
private theorem fromRoot_pre {h : KHeap T} (u : h.Unlocked) (f : Forest h) {r : NodeId} {c : Chain}
    {h' : KHeap T} (e : run (Chain.fromRoot (h.next + 1) r) h = .ok c h') :
    ∃ t, Rep h t ∧ t.id = r ∧ c.nodes = t.pre := by
  obtain ⟨t, rt, rfl⟩ := f.exists_rep r
  refine ⟨t, rt, rfl, ?_⟩
  have d := run_descendants h u (h.next + 1) [t] (by simpa using rt) (by simpa using rt.pre_length_le f)
  simp only [List.map_cons, List.map_nil, List.flatMap_cons, List.flatMap_nil, List.append_nil] at d
  obtain ⟨c', e', en, -⟩ := C07_from_nodes h u t.pre
  simp only [Chain.fromRoot, run_bind, d, Res.bind_ok, e', Res.ok.injEq] at e
  rw [← e.1, en]

private theorem inOrder_trees {robot : Robot F} {node : String → NodeId} (us : List RTree)
    (zs : List (JointTag F)) (e : us.map RTree.id = zs.map (node ·.name)) (hz : ∀ z ∈ zs, z ∈ robot.joints)
    (ih : ∀ t ∈ us, ∀ x ∈ robot.joints, t.id = node x.name → ∃ xs,
      InOrder robot (robot.jointsAt x.childLink).reverse xs ∧ t.pre = node x.name :: xs.map (node ·.name)) :
    ∃ xs, InOrder robot zs xs ∧ us.flatMap RTree.pre = xs.map (node ·.name) := by
  induction us generalizing zs with
  | nil =>
    cases zs with
    | nil => exact ⟨[], .nil, rfl⟩
    | cons z zs => simp at e
  | cons u us ihu =>
    cases zs with
    | nil => simp at e
    | cons z zs =>
      simp only [List.map_cons, List.cons.injEq] at e
      obtain ⟨xs, o, p⟩ := ih u (by simp) z (hz z (by simp)) e.1
      obtain ⟨ys, o', p'⟩ := ihu zs e.2 (fun y hy => hz y (by simp [hy])) fun t ht => ih t (by simp [ht])
      exact ⟨z :: (xs ++ ys), .cons o o', by simp [p, p']⟩

/-- **C32**: from any state without held locks, `Chain::from(robot)` for a valid tree whose joints
convert (no `Range::new` panic, see C33) returns the tree of `robot` made of new nodes, and leaves all
other nodes as they were. -/
theorem C32_tree (cv : F → T) (robot : Robot F) (v : ValidTree robot)
    (conv : ∀ j ∈ robot.joints, ∃ jt, jointFrom cv j = .ok jt)
    (h : KHeap T) (u : h.Unlocked) (f : Forest h) :
    ∃ (h' : KHeap T) (c : Chain) (root : NodeId) (node : String → NodeId),
      (∀ fuel, h.next + robot.joints.length + 2 ≤ fuel →
        run (chainFrom fuel cv robot) h = .ok c h') ∧
      TreeOf cv robot h' c root node ∧ Forest h' ∧ h'.Unlocked ∧
      (∀ n ∈ c.nodes, h.next ≤ n ∧ n < h'.next ∧ h'.dead n = false) ∧
      (∀ n, n ∉ c.nodes → h'.get n = h.get n ∧ h'.dead n = h.dead n) ∧
      h'.next = h.next + 1 + robot.joints.length ∧ root = h.next ∧
      (∀ (i : Nat) j, robot.joints[i]? = some j → node j.name = h.next + 1 + i) := by
  classical
  obtain ⟨js, ls⟩ := robot
  obtain ⟨v1, v2, v3, v4, ⟨depth, v5⟩, v6⟩ := v
  simp only at v1 v2 v3 v4 v5 v6 conv
  -- the joint of each tag
  let cj : JointTag F → Joint T := fun j =>
    if hj : ∃ jt, jointFrom cv j = .ok jt then hj.choose else Joint.new "" .fixed
  have hcj : ∀ j ∈ js, jointFrom cv j = .ok (cj j) := by
    intro j hj
    have := conv j hj
    simp only [cj, this, dif_pos]
    exact this.choose_spec
  let B := h.next
  let rj : Joint T := (NodeBuilder.new.call (.name rootJointName) : NodeBuilder T).finalize
  let hr : KHeap T := h.push (NodeImpl.fresh rj)
  let h0 := pushAll cj js hr
  let t := addAll Tables.empty js (B + 1)
  let node : String → NodeId := fun s => B + 1 + (js.map (·.name)).idxOf s
  let rk : NodeId → Nat := fun n =>
    if n = B then 0 else match js[n - (B + 1)]? with
      | some x => depth x.childLink + 1
      | none => 0
  have hrn : hr.next = B + 1 := rfl
  have nodeI : ∀ i x, js[i]? = some x → node x.name = B + 1 + i := by
    intro i x hx; simp only [node, idxOf_name v1 hx]
  have mem : ∀ {x}, x ∈ js → ∃ i, js[i]? = some x := fun hx => List.mem_iff_getElem?.1 hx
  have ilt : ∀ {i x}, js[i]? = some x → i < js.length := by
    intro i x hx; exact (List.getElem?_eq_some_iff.1 hx).1
  have rkI : ∀ i x, js[i]? = some x → rk (B + 1 + i) = depth x.childLink + 1 := by
    intro i x hx
    have e : B + 1 + i ≠ B := by omega
    have e2 : B + 1 + i - (B + 1) = i := by omega
    simp only [rk, e, if_false, e2, hx]
  have rkB : rk B = 0 := by simp [rk]
  have kidsI : ∀ k n, n ∈ t.kids k ↔ ∃ i x, js[i]? = some x ∧ x.parentLink = k ∧ n = B + 1 + i := by
    intro k n
    simp only [t, mem_addAll_kids]
    simp [Tables.kids, Tables.empty]
  have childI : ∀ i x, js[i]? = some x → t.childLinkToNode x.childLink = some (B + 1 + i) :=
    fun i x hx => addAll_child _ _ _ v3 i x hx
  have childN : ∀ k, (∀ x ∈ js, x.childLink ≠ k) → t.childLinkToNode k = none := by
    intro k hk; simp only [t, addAll_child_other _ _ _ _ hk, Tables.empty]
  have childE : ∀ k p, t.childLinkToNode k = some p → ∃ i x, js[i]? = some x ∧ x.childLink = k ∧
      p = B + 1 + i := by
    intro k p hp
    by_cases hk : ∀ x ∈ js, x.childLink ≠ k
    · rw [childN k hk] at hp; cases hp
    · simp only [not_forall, not_not] at hk
      obtain ⟨x, hx, rfl⟩ := hk
      obtain ⟨i, hi⟩ := mem hx
      rw [childI i x hi] at hp
      cases hp
      exact ⟨i, x, hi, rfl, rfl⟩
  -- after phase 1
  have hrfr : ∀ m, hr.next ≤ m → (hr.get m).parent = none ∧ (hr.get m).children = [] := by
    intro m hm
    have : m ≠ h.next := by have : hr.next = h.next + 1 := rfl; omega
    have e : hr.get m = h.get m := by simp [hr, Heap.push, this]
    rw [e]; exact f.fresh m (by have : hr.next = h.next + 1 := rfl; omega)
  have hrl : ∀ n, (hr.get n).parent = (h.get n).parent ∧ (hr.get n).children = (h.get n).children := by
    intro n
    by_cases e : n = h.next
    · subst e
      obtain ⟨a, b⟩ := f.fresh h.next (Nat.le_refl _)
      rw [a, b]; simp [hr, Heap.push, NodeImpl.fresh]
    · simp [hr, Heap.push, e]
  have h0l : ∀ n, (h0.get n).parent = (h.get n).parent ∧ (h0.get n).children = (h.get n).children := by
    intro n
    obtain ⟨a, b⟩ := pushAll_links cj js hr hrfr n
    exact ⟨a.trans (hrl n).1, b.trans (hrl n).2⟩
  have h0next : h0.next = B + 1 + js.length := pushAll_next cj js hr
  have h0none : ∀ n, B ≤ n → (h0.get n).parent = none := by
    intro n hn; rw [(h0l n).1]; exact (f.fresh n hn).1
  have h0new : ∀ i x, js[i]? = some x → h0.get (B + 1 + i) = NodeImpl.fresh (cj x) ∧
      h0.dead (B + 1 + i) = false := fun i x hx => pushAll_new cj js hr i x hx
  have h0root : h0.get B = NodeImpl.fresh rj ∧ h0.dead B = false := by
    obtain ⟨a, b⟩ := pushAll_old cj js hr B (by rw [hrn]; omega)
    refine ⟨a.trans ?_, b.trans ?_⟩ <;> simp [hr, B, Heap.push]
  have h0old : ∀ n, n < B ∨ h0.next ≤ n → h0.get n = h.get n ∧ h0.dead n = h.dead n := by
    intro n hn
    obtain ⟨a, b⟩ := hn.elim (fun hn => pushAll_old cj js hr n (by rw [hrn]; omega))
      (fun hn => pushAll_above cj js hr n (by rw [hrn]; omega))
    have : n ≠ h.next := by omega
    refine ⟨a.trans ?_, b.trans ?_⟩ <;> simp [hr, Heap.push, this]
  have h0alive : ∀ n, B ≤ n → n < h0.next → h0.dead n = false := by
    intro n a b
    by_cases e : n = B
    · rw [e]; exact h0root.2
    · have hi : n - (B + 1) < js.length := by omega
      have := (h0new (n - (B + 1)) js[n - (B + 1)] (List.getElem?_eq_getElem hi)).2
      rwa [show B + 1 + (n - (B + 1)) = n by omega] at this
  have g0 : Growing B rk h0 h0 := by
    refine ⟨f.frame (by rw [h0next]; omega) h0l, ?_, rfl, rfl, ?_, fun _ _ => rfl, fun _ => rfl⟩
    · intro n
      have : h0.held = hr.held := pushAll_held cj js hr
      rw [this]; exact u n
    · intro n p hp e
      rw [(h0l n).1] at e
      have := (f.bound p n ((f.agree p n).2 e)).2
      exact absurd this (by omega)
  have r0 : run (makeNodes cv js Tables.empty) hr = .ok t h0 := by
    rw [run_makeNodes cv cj js hcj]; rfl
  -- phase 2
  obtain ⟨h1, r1, g1, a1, b1, c1, d1, e1, m1, k1, k1'⟩ := g0.connect cv t B (Nat.le_refl B)
    (by rw [h0next]; omega) ls v2
    (fun l _ => by
      refine addAll_kids_nodup _ _ _ _ ?_ ?_ <;> simp [Tables.kids, Tables.empty])
    (fun l _ l' _ n hn hn' => by
      obtain ⟨i, x, x1, x2, x3⟩ := (kidsI _ _).1 hn
      obtain ⟨i', x', y1, y2, y3⟩ := (kidsI _ _).1 hn'
      have : i = i' := by omega
      subst this
      rw [x1] at y1; cases y1
      rw [← x2, y2])
    (fun l _ p hp => by
      obtain ⟨i, x, x1, x2, x3⟩ := childE _ _ hp
      have := ilt x1
      refine ⟨by omega, by omega, by omega, fun n hn => ?_⟩
      obtain ⟨k, y, y1, y2, y3⟩ := (kidsI _ _).1 hn
      have := ilt y1
      refine ⟨by omega, by omega, h0none n (by omega), ?_⟩
      rw [x3, y3, rkI i x x1, rkI k y y1]
      have := v5 y (List.mem_of_getElem? y1)
      rw [y2, ← x2] at this
      omega)
    (fun l _ l' _ p hp hp' => by
      obtain ⟨i, x, x1, x2, x3⟩ := childE _ _ hp
      obtain ⟨i', x', y1, y2, y3⟩ := childE _ _ hp'
      have : i = i' := by omega
      subst this
      rw [x1] at y1; cases y1
      rw [← x2, y2])
  -- phase 3
  obtain ⟨h2, r2, g2, a2, b2, c2, f2⟩ := g1.mimics cv t js v1 node
    (fun x hx => by
      obtain ⟨i, hi⟩ := mem hx
      rw [nodeI i x hi]; exact addAll_name _ _ _ v1 i x hi)
    (fun x hx => by
      obtain ⟨i, hi⟩ := mem hx
      have := ilt hi
      have := g1.next
      rw [nodeI i x hi]; omega)
    (fun x hx y hy e => by
      obtain ⟨i, hi⟩ := mem hx
      obtain ⟨k, hk⟩ := mem hy
      rw [nodeI i x hi, nodeI k y hk] at e
      have : i = k := by omega
      subst this
      rw [hi] at hk; cases hk; rfl)
    (fun x hx m hm => by
      obtain ⟨y, hy, e⟩ := v6 x hx m hm
      obtain ⟨k, hk⟩ := mem hy
      rw [← e]
      have := ilt hk
      have := g1.next
      rw [nodeI k y hk]
      refine ⟨?_, by omega⟩
      exact addAll_name _ _ _ v1 k y hk)
  have refs : t.refNodes = List.range' (B + 1) js.length := by
    simp only [t, addAll_refNodes]; simp [Tables.empty]
  have rangeEq : List.range' (B + 1) js.length = js.map fun j => node j.name := by
    apply List.ext_getElem
    · simp
    · intro i hi hi'
      have hij : i < js.length := by simpa using hi
      rw [List.getElem_range', List.getElem_map, nodeI i js[i] (List.getElem?_eq_getElem hij)]
      omega
  have memRef : ∀ n, n ∈ t.refNodes ↔ ∃ i x, js[i]? = some x ∧ n = B + 1 + i := by
    intro n
    rw [refs, List.mem_range']
    constructor
    · rintro ⟨i, hi, e⟩
      exact ⟨i, js[i], List.getElem?_eq_getElem hi, by omega⟩
    · rintro ⟨i, x, hx, e⟩
      exact ⟨i, ilt hx, by omega⟩
  -- parents after phase 2
  have par2 : ∀ i x, js[i]? = some x →
      (∀ k y, js[k]? = some y → y.childLink = x.parentLink →
        (h2.get (B + 1 + i)).parent = some (B + 1 + k)) ∧
      ((∀ y ∈ js, y.childLink ≠ x.parentLink) → (h2.get (B + 1 + i)).parent = none) := by
    intro i x hx
    refine ⟨fun k y hy e => ?_, fun hn => ?_⟩
    · obtain ⟨l, hl, el⟩ := v4 x (List.mem_of_getElem? hx)
      rw [(a2 _).1]
      refine (a1 l hl (B + 1 + k) ?_).2 _ ((kidsI _ _).2 ⟨i, x, hx, el.symm, rfl⟩)
      rw [el, ← e]; exact childI k y hy
    · rw [(a2 _).1, b1, h0none _ (by omega)]
      intro l hl p hp hm
      obtain ⟨i', x', y1, y2, y3⟩ := (kidsI _ _).1 hm
      have : i = i' := by omega
      subst this
      rw [hx] at y1; cases y1
      obtain ⟨k, y, z1, z2, z3⟩ := childE _ _ hp
      exact hn y (List.mem_of_getElem? z1) (z2.trans y2.symm)
  have split : ∀ (i : Nat) (x : JointTag F), js[i]? = some x →
      (∃ (k : Nat) (y : JointTag F), js[k]? = some y ∧ y.childLink = x.parentLink) ∨
      (∀ y ∈ js, y.childLink ≠ x.parentLink) := by
    intro i x hx
    by_cases hk : ∀ y ∈ js, y.childLink ≠ x.parentLink
    · exact .inr hk
    · simp only [not_forall, not_not] at hk
      obtain ⟨y, hy, e⟩ := hk
      obtain ⟨k, hk⟩ := mem hy
      exact .inl ⟨k, y, hk, e⟩
  have n2 : h2.next = B + 1 + js.length := g2.next.trans h0next
  -- phase 4
  obtain ⟨h3, r3, g3, p3, l3, k3⟩ := g2.roots (root := B) (Nat.le_refl _) (by omega) t.refNodes
    (by rw [refs]; exact List.nodup_range' 1)
    (fun n hn => by
      obtain ⟨i, x, hx, rfl⟩ := (memRef n).1 hn
      have := ilt hx
      refine ⟨by omega, by omega, ?_⟩
      rw [rkB, rkI i x hx]; omega)
    (fun n hn p hp => by
      obtain ⟨i, x, hx, rfl⟩ := (memRef n).1 hn
      rw [g2.dead]
      rcases split i x hx with ⟨k, y, hk, e⟩ | hno
      · rw [(par2 i x hx).1 k y hk e] at hp
        cases hp
        exact (h0new k y hk).2
      · rw [(par2 i x hx).2 hno] at hp; cases hp)
  have par3 : ∀ i x, js[i]? = some x →
      (∀ k y, js[k]? = some y → y.childLink = x.parentLink →
        (h3.get (B + 1 + i)).parent = some (B + 1 + k)) ∧
      ((∀ y ∈ js, y.childLink ≠ x.parentLink) → (h3.get (B + 1 + i)).parent = some B) := by
    intro i x hx
    have hr : B + 1 + i ∈ t.refNodes := (memRef _).2 ⟨i, x, hx, rfl⟩
    refine ⟨fun k y hy e => ?_, fun hn => ?_⟩
    · rw [p3, (par2 i x hx).1 k y hy e]; simp
    · rw [p3, (par2 i x hx).2 hn]; simp [hr]
  have parB : (h3.get B).parent = none := by
    have nb : B ∉ t.refNodes := by
      intro hm
      obtain ⟨i, x, hx, e⟩ := (memRef _).1 hm
      omega
    rw [p3, if_neg (fun z => nb z.1), (a2 B).1, b1, h0none B (Nat.le_refl _)]
    intro l hl p hp hm
    obtain ⟨i', x', y1, y2, y3⟩ := (kidsI _ _).1 hm
    omega
  -- children
  have kidsO : ∀ k, t.kids k = (js.filter fun x => decide (x.parentLink = k)).map fun x => node x.name := by
    intro k
    rw [addAll_kids Tables.empty js (B + 1) k node nodeI]
    simp [Tables.kids, Tables.empty]
  have h0kids : ∀ n, B ≤ n → (h0.get n).children = [] := by
    intro n hn; rw [(h0l n).2]; exact (f.fresh n hn).2
  have kidsJ : ∀ i x, js[i]? = some x → (h3.get (B + 1 + i)).children =
      (js.filter fun y => decide (y.parentLink = x.childLink)).map fun y => node y.name := by
    intro i x hx
    rw [k3, if_neg (by omega), (a2 _).2.2]
    by_cases hl : ∃ l ∈ ls, l.name = x.childLink
    · obtain ⟨l, hl, e⟩ := hl
      rw [k1 l hl _ (by rw [e]; exact childI i x hx), h0kids _ (by omega), e, kidsO, List.nil_append]
    · have none : (js.filter fun y => decide (y.parentLink = x.childLink)) = [] := by
        rw [List.filter_eq_nil_iff]
        intro y hy e
        obtain ⟨l, hl', e'⟩ := v4 y hy
        exact hl ⟨l, hl', by rw [e']; simpa using e⟩
      rw [none, k1' _ fun l hl' e => ?_, h0kids _ (by omega)]
      · rfl
      · obtain ⟨k, y, y1, y2, y3⟩ := childE _ _ e
        have : i = k := by omega
        subst this
        rw [hx] at y1; cases y1
        exact hl ⟨l, hl', y2.symm⟩
  have kidsB : (h3.get B).children =
      (js.filter fun x => decide (∀ k ∈ js, k.childLink ≠ x.parentLink)).map fun x => node x.name := by
    rw [k3, if_pos rfl, (a2 _).2.2, k1' _ fun l hl e => ?_, h0kids _ (Nat.le_refl _), List.nil_append, refs,
      rangeEq, List.filter_map]
    · congr 1
      refine List.filter_congr fun x hx => ?_
      obtain ⟨i, hi⟩ := mem hx
      rw [Bool.eq_iff_iff, decide_eq_true_iff]
      simp only [Function.comp_apply, nodeI i x hi]
      rcases split i x hi with ⟨k, y, hk, e⟩ | hno
      · rw [(par2 i x hi).1 k y hk e]
        simp only [Option.isNone_some, Bool.false_eq_true, false_iff]
        exact fun z => z y (List.mem_of_getElem? hk) e
      · rw [(par2 i x hi).2 hno]
        simpa using hno
    · obtain ⟨k, y, y1, y2, y3⟩ := childE _ _ e
      omega
  -- phase 5
  have n3 : h3.next = B + 1 + js.length := g3.next.trans h0next
  obtain ⟨c, rc, w, hd, cnd, cm, pf⟩ := C09_from_root h3 g3.unlocked g3.forest B
  have up : ∀ d i x, js[i]? = some x → depth x.childLink ≤ d → Below h3 B (B + 1 + i) := by
    intro d
    induction d with
    | zero =>
      intro i x hx hd
      have := v5 x (List.mem_of_getElem? hx)
      omega
    | succ d ih =>
      intro i x hx hd
      have lt := v5 x (List.mem_of_getElem? hx)
      rcases split i x hx with ⟨k, y, hk, e⟩ | hno
      · exact (ih k y hk (by rw [e]; omega)).step
          ((g3.forest.agree _ _).2 ((par3 i x hx).1 k y hk e))
      · exact Below.refl.step ((g3.forest.agree _ _).2 ((par3 i x hx).2 hno))
  have cm' : ∀ n, n ∈ c.nodes ↔ n = B ∨ ∃ i x, js[i]? = some x ∧ n = B + 1 + i := by
    intro n
    rw [cm n]
    constructor
    · intro b
      have ge := (g3.below (Nat.le_refl B) b).1
      rcases b.lt_next g3.forest with e | lt
      · exact .inl e
      · by_cases e : n = B
        · exact .inl e
        · have hi : n - (B + 1) < js.length := by omega
          exact .inr ⟨n - (B + 1), js[n - (B + 1)], List.getElem?_eq_getElem hi, by omega⟩
    · rintro (rfl | ⟨i, x, hx, rfl⟩)
      · exact .refl
      · exact up _ i x hx (Nat.le_refl _)
  have perm0 : c.nodes.Perm (B :: List.range' (B + 1) js.length) := by
    refine (List.perm_ext_iff_of_nodup cnd ?_).2 fun n => ?_
    · rw [List.nodup_cons]
      refine ⟨?_, List.nodup_range' 1⟩
      rw [List.mem_range']
      rintro ⟨i, _, e⟩; omega
    · rw [cm', List.mem_cons, ← refs, memRef]
  have jt : ∀ i x, js[i]? = some x → (h3.get (B + 1 + i)).joint = cj x := by
    intro i x hx; rw [g3.joint, (h0new i x hx).1]; rfl
  have jtB : (h3.get B).joint = rj := by rw [g3.joint, h0root.1]; rfl
  have lpOf : ∀ n p, (h3.get n).parent = some p → B ≤ p → p < h3.next →
      liveParent h3 n = some p := by
    intro n p e a b
    have : h3.dead p = false := by rw [g3.dead]; exact h0alive p a (by omega)
    simp [liveParent, e, this]
  refine ⟨h3, c, B, node, fun fuel hf => ?_, ?_, g3.forest, g3.unlocked, ?_, ?_, n3, rfl, nodeI⟩
  · have : h3.next + 1 ≤ fuel := by rw [n3]; simp only at hf; omega
    have rr : run (NodeBuilder.intoNode (NodeBuilder.new.call (.name rootJointName) :
        NodeBuilder T)) h = .ok B hr := by
      rw [NodeBuilder.intoNode, run_Node_new]
    simp only [chainFrom, run_bind, rr, Res.bind_ok, r0, r1, r2, r3, rc fuel this]
  · refine ⟨?_, cnd, hd, pf, ?_, ?_, ?_, ?_, ?_, ?_, kidsB, ?_, ?_, ?_, ?_, ?_, ?_, ?_, ?_, ?_, w, ?_⟩
    · rw [← rangeEq]; exact perm0
    · intro x hx
      obtain ⟨i, hi⟩ := mem hx
      rw [nodeI i x hi, jt i x hi]; exact hcj x hx
    · rw [jtB]; rfl
    · exact parB
    · intro x hx y hy e
      obtain ⟨i, hi⟩ := mem hx
      obtain ⟨k, hk⟩ := mem hy
      have := ilt hk
      rw [nodeI i x hi, nodeI k y hk]
      exact lpOf _ _ ((par3 i x hi).1 k y hk e) (by omega) (by omega)
    · intro x hx hno
      obtain ⟨i, hi⟩ := mem hx
      rw [nodeI i x hi]
      exact lpOf _ _ ((par3 i x hi).2 hno) (by omega) (by omega)
    · intro x hx
      obtain ⟨i, hi⟩ := mem hx
      rw [nodeI i x hi]
      exact kidsJ i x hi
    · obtain ⟨t, rt, et, en⟩ := fromRoot_pre g3.unlocked g3.forest (rc (h3.next + 1) (Nat.le_refl _))
      have sub : ∀ t, Rep h3 t → ∀ x ∈ js, t.id = node x.name → ∃ xs,
          InOrder ⟨js, ls⟩ (Robot.jointsAt ⟨js, ls⟩ x.childLink).reverse xs ∧
          t.pre = node x.name :: xs.map (node ·.name) := by
        intro t
        refine RTree.induct' (P := fun t => Rep h3 t → ∀ x ∈ js, t.id = node x.name → ∃ xs,
          InOrder ⟨js, ls⟩ (Robot.jointsAt ⟨js, ls⟩ x.childLink).reverse xs ∧
          t.pre = node x.name :: xs.map (node ·.name)) ?_ t
        intro n ts ih rt x hx e
        simp only [RTree.id] at e
        subst e
        obtain ⟨i, hi⟩ := mem hx
        have kd := rt.children
        rw [nodeI i x hi, kidsJ i x hi] at kd
        obtain ⟨xs, o, e⟩ := inOrder_trees (robot := ⟨js, ls⟩) (node := node) ts.reverse
          (Robot.jointsAt ⟨js, ls⟩ x.childLink).reverse
          (by rw [List.map_reverse, List.map_reverse, ← kd]; rfl)
          (fun y hy => (List.mem_filter.1 (List.mem_reverse.1 hy)).1)
          (fun t ht y hy e => ih t (List.mem_reverse.1 ht) (rt.sub t (List.mem_reverse.1 ht)) y hy e)
        exact ⟨xs, o, by rw [RTree.pre_node, e]⟩
      cases t with
      | node n ts =>
        simp only [RTree.id] at et
        subst et
        have kd := rt.children
        rw [kidsB] at kd
        obtain ⟨xs, o, e⟩ := inOrder_trees (robot := ⟨js, ls⟩) (node := node) ts.reverse
          (Robot.baseJoints ⟨js, ls⟩).reverse
          (by rw [List.map_reverse, List.map_reverse, ← kd]; rfl)
          (fun y hy => (List.mem_filter.1 (List.mem_reverse.1 hy)).1)
          (fun t ht y hy e => sub t (rt.sub t (List.mem_reverse.1 ht)) y hy e)
        exact ⟨xs, o, by rw [en, RTree.pre_node, e]⟩
    · intro x hx l hl e
      obtain ⟨i, hi⟩ := mem hx
      rw [nodeI i x hi, (l3 _).1, (a2 _).2.1]
      exact (a1 l hl _ (by rw [e]; exact childI i x hi)).1
    · intro x hx hno
      obtain ⟨i, hi⟩ := mem hx
      rw [nodeI i x hi, (l3 _).1, (a2 _).2.1, c1 _ (by omega) ?_, (h0new i x hi).1]
      · rfl
      · intro l hl e
        obtain ⟨k, y, y1, y2, y3⟩ := childE _ _ e
        have : i = k := by omega
        subst this
        rw [hi] at y1; cases y1
        exact hno l hl y2.symm
    · intro l hl hb hu
      rw [(l3 _).1, (a2 _).2.1]
      refine d1 l hl (childN _ hb) (fun l' hl' e => hu l' hl' fun y hy z => ?_)
      obtain ⟨k, hk⟩ := mem hy
      rw [← z, childI k y hk] at e; cases e
    · intro x hx m hm
      obtain ⟨q1, q2⟩ := b2 x hx m hm
      obtain ⟨y, hy, ey⟩ := v6 x hx m hm
      obtain ⟨k, hk⟩ := mem hy
      refine ⟨?_, by rw [tie1 (l3 _).2.2]; exact q2⟩
      have : h3.dead (node m.joint) = false := by
        rw [← ey, nodeI k y hk, g3.dead]; exact (h0new k y hk).2
      have e2 : (h3.get (node x.name)).mimicParent = some (node m.joint) := by
        rw [(l3 _).2.1]; exact q1
      simp [liveMimic, e2, this]
    · intro x hx hm
      obtain ⟨i, hi⟩ := mem hx
      obtain ⟨q1, q2⟩ := c2 (node x.name) (fun y hy s e => by
        obtain ⟨k, hk⟩ := mem hy
        rw [nodeI i x hi, nodeI k y hk] at e
        have : i = k := by omega
        subst this
        rw [hi] at hk; cases hk
        rw [hm] at s; cases s)
      have fresh : (h0.get (node x.name)).mimicParent = none ∧ (h0.get (node x.name)).mimic = none := by
        rw [nodeI i x hi, (h0new i x hi).1]; exact ⟨rfl, rfl⟩
      have e2 : (h3.get (node x.name)).mimicParent = none := by
        rw [(l3 _).2.1, q1, (m1 _).1]; exact fresh.1
      refine ⟨e2, ?_⟩
      rw [tie1 (l3 _).2.2, q2, tie1 (m1 _).2]; exact fresh.2
    · obtain ⟨q1, q2⟩ := c2 B (fun y hy s e => by
        obtain ⟨k, hk⟩ := mem hy
        rw [nodeI k y hk] at e
        omega)
      have e2 : (h3.get B).mimicParent = none := by
        rw [(l3 _).2.1, q1, (m1 _).1, h0root.1]; rfl
      refine ⟨e2, ?_⟩
      rw [tie1 (l3 _).2.2, q2, tie1 (m1 _).2, h0root.1]; rfl
    · intro x hx
      obtain ⟨i, hi⟩ := mem hx
      have fresh : (h0.get (node x.name)).mimicChildren = [] := by
        rw [nodeI i x hi, (h0new i x hi).1]; rfl
      rw [tie2 (l3 _).2.2, f2, tie2 (m1 _).2, fresh, List.nil_append]
      congr 1
      refine List.filter_congr fun y hy => ?_
      rw [Bool.eq_iff_iff]
      cases em : y.mimic with
      | none => simp
      | some m =>
        obtain ⟨z, hz, ez⟩ := v6 y hy m em
        obtain ⟨k, hk⟩ := mem hz
        simp only [Option.map_some, beq_iff_eq, Option.some.injEq]
        constructor
        · intro e
          rw [← ez, nodeI k z hk, nodeI i x hi] at e
          have : k = i := by omega
          subst this
          rw [hi] at hk; cases hk; exact ez.symm
        · intro e; rw [e]
    · rw [tie2 (l3 _).2.2, f2, tie2 (m1 _).2, h0root.1]
      show ([] : List NodeId) ++ _ = []
      rw [List.nil_append, List.map_eq_nil_iff, List.filter_eq_nil_iff]
      intro y hy
      cases em : y.mimic with
      | none => simp
      | some m =>
        obtain ⟨z, hz, ez⟩ := v6 y hy m em
        obtain ⟨k, hk⟩ := mem hz
        simp only [Option.map_some, beq_iff_eq, Option.some.injEq]
        rw [← ez, nodeI k z hk]
        omega
    · rw [w.dof, w.movable, (perm0.filter _).length_eq, List.filter_cons]
      have nb : decide (Movable h3 B) = false := by
        simp [Movable, jtB, rj, NodeBuilder.finalize, NodeBuilder.call, NodeBuilder.new, Joint.new,
          Joint.setOrigin]
      rw [nb, if_neg (by simp)]
      refine count_range js (B + 1) _ _ fun i x hx => ?_
      have cx : Converted cv x (cj x) := by
        have hx' := hcj x (List.mem_of_getElem? hx)
        obtain ⟨q1, q2, q3⟩ := C33_joint cv x
        cases e : Scalar.eq (x.upper - x.lower) 0 with
        | true =>
          obtain ⟨j, z1, z2, _⟩ := q1 e
          rw [hx'] at z1; cases z1; exact z2
        | false =>
          cases e' : Scalar.le (cv x.lower) (cv x.upper) with
          | true =>
            obtain ⟨j, z1, z2, _⟩ := q2 e e'
            rw [hx'] at z1; cases z1; exact z2
          | false =>
            obtain ⟨m, z⟩ := q3 e e'
            rw [hx'] at z; cases z
      rw [decide_eq_decide]
      simp only [Movable, jt i x hx, JointTag.moves]
      by_cases k1 : x.kind = .revolute
      · simp [cx.turning (.inl k1), k1]
      · by_cases k2 : x.kind = .continuous
        · simp [cx.turning (.inr k2), k2]
        · by_cases k3 : x.kind = .prismatic
          · simp [cx.sliding k3, k3]
          · simp [cx.rest k1 k2 k3, k1, k2, k3]
  · intro n hn
    rcases (cm' n).1 hn with rfl | ⟨i, x, hx, rfl⟩
    · exact ⟨Nat.le_refl _, by omega, by rw [g3.dead]; exact h0root.2⟩
    · have := ilt hx
      exact ⟨by omega, by omega, by rw [g3.dead]; exact (h0new i x hx).2⟩
  · intro n hn
    have out : n < B ∨ h0.next ≤ n := by
      by_contra z
      refine hn ((cm' n).2 ?_)
      by_cases e : n = B
      · exact .inl e
      · have hi : n - (B + 1) < js.length := by omega
        exact .inr ⟨n - (B + 1), js[n - (B + 1)], List.getElem?_eq_getElem hi, by omega⟩
    obtain ⟨a, b⟩ := h0old n out
    exact ⟨(g3.old n out).trans a, by rw [g3.dead]; exact b⟩

/-- a branching robot: `lift` from base to torso, `left` and `right` from torso to the hands; `right`
mimics `left` -/
noncomputable def exRobot : Robot ℝ :=
  ⟨[⟨"lift", .prismatic, ⟨⟨0, 0, 1⟩, ⟨0, 0, 0⟩⟩, "base", "torso", ⟨0, 0, 1⟩, 0, 2, none⟩,
    ⟨"left", .revolute, ⟨⟨0, 1, 0⟩, ⟨0, 0, 0⟩⟩, "torso", "lhand", ⟨0, 1, 0⟩, -1, 1, none⟩,
    ⟨"right", .revolute, ⟨⟨0, -1, 0⟩, ⟨0, 0, 0⟩⟩, "torso", "rhand", ⟨0, 1, 0⟩, -1, 1,
      some ⟨"left", some (-1), none⟩⟩],
   [exLink "lhand", exLink "rhand", exLink "torso", exLink "base"]⟩

theorem exRobot_valid : ValidTree exRobot where
  jointNames := by simp [exRobot]
  linkNames := by simp [exRobot, exLink]
  oneParent := by simp [exRobot]
  declared := by simp [exRobot, exLink]
  acyclic := ⟨fun s => if s = "base" then 0 else if s = "torso" then 1 else 2, by simp [exRobot]⟩
  masters := by simp [exRobot]

theorem exRobot_converts : ∀ j ∈ exRobot.joints, ∃ jt, jointFrom (T := ℝ) id j = .ok jt := by
  intro j hj
  obtain ⟨jt, e, _⟩ := (C33_limits_real j).2.1 (by
    simp only [exRobot, List.mem_cons, List.not_mem_nil, or_false] at hj
    rcases hj with rfl | rfl | rfl <;> norm_num)
  exact ⟨jt, e⟩

/-- **C32** on the branching robot: three degrees of freedom, four nodes -/
example (h : KHeap ℝ) (u : h.Unlocked) (f : Forest h) : ∃ (h' : KHeap ℝ) (c : Chain),
    (∀ fuel, h.next + 5 ≤ fuel → run (chainFrom fuel (T := ℝ) id exRobot) h = .ok c h') ∧
    c.dof = 3 ∧ c.nodes.length = 4 := by
  obtain ⟨h', c, root, node, a, b, _⟩ := C32_tree (T := ℝ) id exRobot exRobot_valid exRobot_converts h u f
  refine ⟨h', c, fun fuel hf => a fuel (by simpa [exRobot] using hf), ?_, ?_⟩
  · rw [b.dof]; simp [exRobot, JointTag.moves]
  · rw [b.nodes.length_eq]; simp [exRobot]

/-- an empty heap -/
def exEmpty (j : Joint T) : KHeap T := ⟨fun _ => NodeImpl.fresh j, 0, fun _ => false, fun _ => false⟩

/-- **C32** (why `acyclic` is needed): joints that form a cycle are dropped without any error. -/
theorem C32_cycle_dropped (fuel : Nat) : ∃ h', run (chainFrom (fuel + 2) (T := ℝ) id
    (⟨[exTag "j1" "a" "b", exTag "j2" "b" "a"], [exLink "a", exLink "b"]⟩ : Robot ℝ))
      (exEmpty (Joint.new "" .fixed)) = .ok ⟨[0], [], 0⟩ h' := by
  obtain ⟨j1, e1, -⟩ := (C33_limits_real (exTag "j1" "a" "b")).2.1 (by simp [exTag])
  obtain ⟨j2, e2, -⟩ := (C33_limits_real (exTag "j2" "b" "a")).2.1 (by simp [exTag])
  simp only [chainFrom, makeNodes, run_bind, e1, e2, run_ofExcept_ok, Res.bind_ok]
  exact ⟨_, rfl⟩

/-! `masters` is needed: a mimic tag naming no joint panics -/

private theorem forEach_ok {γ : Type} (xs : List γ) (f : γ → KProg T Unit)
    (ok : ∀ x ∈ xs, ∀ h : KHeap T, h.Unlocked → ∃ h', run (f x) h = .ok () h' ∧ h'.Unlocked)
    (h : KHeap T) (u : h.Unlocked) : ∃ h', run (forEach xs f) h = .ok () h' ∧ h'.Unlocked := by
  induction xs generalizing h with
  | nil => exact ⟨h, rfl, u⟩
  | cons x xs ih =>
    obtain ⟨h1, r1, u1⟩ := ok x (by simp) h u
    obtain ⟨h2, r2, u2⟩ := ih (fun y hy => ok y (by simp [hy])) h1 u1
    exact ⟨h2, by rw [run_forEach_cons, r1, Res.bind_ok, r2], u2⟩

private theorem connectLink_ok (cv : F → T) (t : Tables) (root : NodeId) (l : LinkTag F) (h : KHeap T)
    (u : h.Unlocked) : ∃ h', run (connectLink cv t root l) h = .ok () h' ∧ h'.Unlocked := by
  unfold connectLink
  cases t.childLinkToNode l.name with
  | none => exact ⟨_, run_Node_setLink _ _ _ (u _), u.modify _ _⟩
  | some p =>
    cases t.parentLinkToNodes l.name with
    | none =>
      exact ⟨_, run_Node_setLink _ _ _ (u _), u.modify _ _⟩
    | some cs =>
      obtain ⟨h1, r1, u1⟩ := forEach_ok cs (fun c => Node.setParent c p) (fun c _ h u =>
        ⟨_, run_Node_setParent c p h u, (u.modify _ _).modify _ _⟩) h u
      simp only [run_bind, r1, Res.bind_ok]
      exact ⟨_, run_Node_setLink _ _ _ (u1 _), u1.modify _ _⟩

private theorem addAll_name_some (t : Tables) (js : List (JointTag F)) (b : NodeId) (k : String)
    (hk : (t.jointNameToNode k).isSome ∨ ∃ j ∈ js, j.name = k) :
    ((addAll t js b).jointNameToNode k).isSome := by
  induction js generalizing t b with
  | nil => simpa [addAll] using hk
  | cons j js ih =>
    refine ih _ _ ?_
    rcases hk with h | ⟨x, hx, e⟩
    · left; simp only [Tables.add, SMap.insert]; split
      · rfl
      · exact h
    · rcases List.mem_cons.1 hx with rfl | hx
      · left; simp [Tables.add, SMap.insert, e]
      · exact .inr ⟨x, hx, e⟩

private theorem mimics_panic (cv : F → T) (t : Tables) (js : List (JointTag F))
    (own : ∀ j ∈ js, (t.jointNameToNode j.name).isSome)
    (bad : ∃ j ∈ js, ∃ m, j.mimic = some m ∧ t.jointNameToNode m.joint = none)
    (h : KHeap T) (u : h.Unlocked) : ∃ s h', run (forEach js (addMimic cv t)) h = .panic s h' := by
  induction js generalizing h with
  | nil => obtain ⟨_, hx, _⟩ := bad; cases hx
  | cons j js ih =>
    rw [run_forEach_cons]
    obtain ⟨n, hn⟩ := Option.isSome_iff_exists.1 (own j (by simp))
    have ih' := ih (fun x hx => own x (by simp [hx]))
    cases em : j.mimic with
    | none =>
      have r : run (addMimic cv t j) h = .ok () h := by simp only [addMimic, em]; rfl
      rw [r, Res.bind_ok]
      refine ih' ?_ h u
      obtain ⟨x, hx, m, a, b⟩ := bad
      rcases List.mem_cons.1 hx with rfl | hx
      · rw [em] at a; cases a
      · exact ⟨x, hx, m, a, b⟩
    | some m =>
      cases ek : t.jointNameToNode m.joint with
      | none =>
        simp only [addMimic, em, hn, ek, run_bind, run_expect_some, Res.bind_ok, run_expect_none,
          Res.bind_panic]
        exact ⟨_, _, rfl⟩
      | some k =>
        simp only [addMimic, em, hn, ek, run_bind, run_expect_some, Res.bind_ok,
          run_Node_setMimicParent _ _ _ _ u]
        refine ih' ?_ _ (((u.modify _ _).modify _ _).modify _ _)
        obtain ⟨x, hx, m', a, b⟩ := bad
        rcases List.mem_cons.1 hx with rfl | hx
        · rw [em] at a; cases a; rw [ek] at b; cases b
        · exact ⟨x, hx, m', a, b⟩

/-- **C32** (unknown mimic joint): if the joints convert and some mimic tag names no joint, the
conversion panics, whatever the rest of the description looks like. -/
theorem C32_unknown_master_panics (cv : F → T) (robot : Robot F)
    (conv : ∀ j ∈ robot.joints, ∃ jt, jointFrom cv j = .ok jt)
    (bad : ∃ j ∈ robot.joints, ∃ m, j.mimic = some m ∧ ∀ k ∈ robot.joints, k.name ≠ m.joint)
    (h : KHeap T) (u : h.Unlocked) (fuel : Nat) :
    ∃ s h', run (chainFrom fuel cv robot) h = .panic s h' := by
  classical
  let cj : JointTag F → Joint T := fun j =>
    if hj : ∃ jt, jointFrom cv j = .ok jt then hj.choose else Joint.new "" .fixed
  have hcj : ∀ j ∈ robot.joints, jointFrom cv j = .ok (cj j) := by
    intro j hj
    have := conv j hj
    simp only [cj, this, dif_pos]
    exact this.choose_spec
  simp only [chainFrom, run_bind, NodeBuilder.intoNode, run_Node_new, Res.bind_ok,
    run_makeNodes cv cj robot.joints hcj]
  generalize ht : addAll Tables.empty robot.joints
    (Heap.push h (NodeImpl.fresh (NodeBuilder.finalize
      (NodeBuilder.new.call (.name rootJointName))))).next = t
  have u0 : (pushAll cj robot.joints (Heap.push h (NodeImpl.fresh (NodeBuilder.finalize
      (NodeBuilder.new.call (.name rootJointName)))))).Unlocked := by
    intro n; rw [pushAll_held]; exact u n
  obtain ⟨h1, r1, u1⟩ := forEach_ok robot.links (connectLink cv t h.next)
    (fun l _ g u => connectLink_ok cv t h.next l g u) _ u0
  obtain ⟨s, h2, r2⟩ := mimics_panic cv t robot.joints (fun j hj => by
      rw [← ht]; exact addAll_name_some _ _ _ _ (.inr ⟨j, hj, rfl⟩))
    (by
      obtain ⟨j, hj, m, e, no⟩ := bad
      refine ⟨j, hj, m, e, ?_⟩
      rw [← ht, addAll_name_other _ _ _ _ no]; rfl) h1 u1
  exact ⟨s, h2, by rw [r1, Res.bind_ok, r2, Res.bind_panic]⟩

/-- **C32** (conversion panic): if some joint does not convert (`lower > upper` or NaN, C33), the
conversion panics. -/
theorem C32_bad_limits_panic (cv : F → T) (robot : Robot F)
    (bad : ∃ j ∈ robot.joints, ∃ m, jointFrom cv j = .error m) (h : KHeap T) (fuel : Nat) :
    ∃ s h', run (chainFrom fuel cv robot) h = .panic s h' := by
  have key : ∀ (js : List (JointTag F)) (t : Tables) (h : KHeap T),
      (∃ j ∈ js, ∃ m, jointFrom cv j = .error m) → ∃ s h', run (makeNodes cv js t) h = .panic s h' := by
    intro js
    induction js with
    | nil => rintro t h ⟨_, hx, _⟩; cases hx
    | cons j js ih =>
      intro t h hb
      cases e : jointFrom cv j with
      | error m => exact ⟨m, h, by simp only [makeNodes, run_bind, e, run_ofExcept_error, Res.bind_panic]⟩
      | ok jt =>
        simp only [makeNodes, run_bind, e, run_ofExcept_ok, Res.bind_ok, run_Node_new]
        refine ih _ _ ?_
        obtain ⟨x, hx, m, hm⟩ := hb
        rcases List.mem_cons.1 hx with rfl | hx
        · rw [e] at hm; cases hm
        · exact ⟨x, hx, m, hm⟩
  simp only [chainFrom, run_bind, NodeBuilder.intoNode, run_Node_new, Res.bind_ok]
  obtain ⟨s, h', r⟩ := key robot.joints Tables.empty (Heap.push h (NodeImpl.fresh
    (NodeBuilder.finalize (NodeBuilder.new.call (.name rootJointName))))) bad
  exact ⟨s, h', by rw [r, Res.bind_panic]⟩

end Urdf
end K
