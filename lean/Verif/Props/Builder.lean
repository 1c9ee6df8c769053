import Verif.Lemmas.Tree
import Mathlib.Data.List.Induction
/-!
# C45: `NodeBuilder`, `connect!`
-/

set_option linter.unusedSectionVars false

namespace K
open Prog
variable {T : Type} [Scalar T]

/-- the value of the last element on which `f` answers, else `d` -/
def lastOr {α β : Type} (f : α → Option β) (d : β) (l : List α) : β :=
  (l.reverse.findSome? f).getD d

theorem lastOr_append {α β : Type} (f : α → Option β) (d : β) (l : List α) (x : α) :
    lastOr f d (l ++ [x]) = (f x).getD (lastOr f d l) := by
  unfold lastOr
  simp only [List.reverse_append, List.reverse_singleton, List.singleton_append,
    List.findSome?_cons]
  cases f x <;> rfl

namespace NodeBuilderCall
/-- the name a call sets -/
def name? : NodeBuilderCall T → Option String | .name s => some s | _ => none
/-- the joint type a call sets -/
def type? : NodeBuilderCall T → Option (JointType T) | .jointType t => some t | _ => none
/-- the limits a call sets -/
def limits? : NodeBuilderCall T → Option (Option (Range T)) | .limits t => some t | _ => none
/-- the translation a call sets -/
def trans? : NodeBuilderCall T → Option (V3 T)
  | .translation t => some t | .origin o => some o.trans | _ => none
/-- the rotation a call sets -/
def rot? : NodeBuilderCall T → Option (Quat T)
  | .rotation t => some t | .origin o => some o.rot | _ => none
end NodeBuilderCall

private theorem build_eq (calls : List (NodeBuilderCall T)) :
    calls.foldl NodeBuilder.call NodeBuilder.new =
      { name := lastOr NodeBuilderCall.name? "" calls
        jointType := lastOr NodeBuilderCall.type? .fixed calls
        limits := lastOr NodeBuilderCall.limits? none calls
        origin := ⟨lastOr NodeBuilderCall.trans? V3.zero calls,
          lastOr NodeBuilderCall.rot? Quat.one calls⟩ } := by
  induction calls using List.reverseRecOn with
  | nil => rfl
  | append_singleton l x ih =>
    rw [List.foldl_append, List.foldl_cons, List.foldl_nil, ih]
    simp only [lastOr_append]
    cases x <;> rfl

/-- **C45** (`NodeBuilder`).  Whatever the calls and their order: each property is the one set by the last
call that concerns it (default: empty name, `Fixed`, no limits, identity origin), where `origin` sets
translation and rotation and `translation`, `rotation` only their part; position and velocity are 0 for a
movable joint, and there is no cached transform or velocity. -/
theorem C45_builder (calls : List (NodeBuilderCall T)) :
    let j := (calls.foldl NodeBuilder.call NodeBuilder.new).finalize
    j.name = lastOr NodeBuilderCall.name? "" calls ∧
    j.jointType = lastOr NodeBuilderCall.type? .fixed calls ∧
    j.limits = lastOr NodeBuilderCall.limits? none calls ∧
    j.origin.trans = lastOr NodeBuilderCall.trans? V3.zero calls ∧
    j.origin.rot = lastOr NodeBuilderCall.rot? Quat.one calls ∧
    j.jointPosition = (if j.isMovable then some 0 else none) ∧
    j.jointVelocity = (if j.isMovable then some 0 else none) ∧
    j.worldTransform = none ∧ j.worldVelocity = none := by
  intro j
  have hj : j = (calls.foldl NodeBuilder.call NodeBuilder.new).finalize := rfl
  rw [build_eq] at hj
  clear_value j
  subst hj
  refine ⟨rfl, rfl, rfl, rfl, rfl, ?_, ?_, rfl, rfl⟩ <;>
    simp only [NodeBuilder.finalize, Joint.new, Joint.setOrigin, Joint.jointPosition,
      Joint.jointVelocity, Joint.isMovable] <;>
    cases lastOr NodeBuilderCall.type? JointType.fixed calls <;> rfl

/-- **C45** (order).  `translation` and `rotation` may be exchanged. -/
theorem C45_translation_rotation_commute (b : NodeBuilder T) (t : V3 T) (q : Quat T) :
    (b.call (.translation t)).call (.rotation q) = (b.call (.rotation q)).call (.translation t) := rfl

/-- **C45** (`into_node`).  A new node without parent, children, link and mimic relations. -/
theorem C45_into_node (b : NodeBuilder T) (h : KHeap T) :
    ∃ n h', run b.intoNode h = .ok n h' ∧ n = h.next ∧ h'.next = h.next + 1 ∧
      (h'.get n).joint = b.finalize ∧ (h'.get n).parent = none ∧ (h'.get n).children = [] ∧
      (h'.get n).link = none ∧ (h'.get n).mimicParent = none ∧ (h'.get n).mimicChildren = [] ∧
      ∀ m, m ≠ n → h'.get m = h.get m := by
  refine ⟨h.next, h.push (NodeImpl.fresh b.finalize), rfl, rfl, rfl, ?_⟩
  simp [Heap.push, NodeImpl.fresh]
  intro m hm; simp [hm]

/-- what `connect!` does to the children of node `n` -/
private theorem connect_gen (x : NodeId) (rest : List NodeId) (h : KHeap T) (u : h.Unlocked)
    (nd : (x :: rest).Nodup) :
    ∃ h', run (connect (x :: rest)) h = .ok () h' ∧ h'.Unlocked ∧ h'.next = h.next ∧
      h'.dead = h.dead ∧
      (∀ pre a b post, x :: rest = pre ++ a :: b :: post →
        (h'.get b).parent = some a ∧ (h'.get a).children = (h.get a).children ++ [b]) ∧
      (h'.get x).parent = (h.get x).parent ∧
      (∀ z, (x :: rest).getLast? = some z → (h'.get z).children = (h.get z).children) ∧
      (∀ n, { h'.get n with parent := none, children := [] } =
        { h.get n with parent := none, children := [] }) ∧
      ∀ n, n ∉ x :: rest → h'.get n = h.get n := by
  induction rest generalizing x h with
  | nil =>
    refine ⟨h, rfl, u, rfl, rfl, ?_, rfl, fun _ _ => rfl, fun _ => rfl, fun _ _ => rfl⟩
    intro pre a b post e
    cases pre with
    | nil => simp at e
    | cons y pre => cases pre <;> simp at e
  | cons y rest ih =>
    have hxy : x ≠ y := fun e => by simp [e] at nd
    have hyr : (y :: rest).Nodup := (List.nodup_cons.1 nd).2
    have hx : x ∉ y :: rest := (List.nodup_cons.1 nd).1
    let h1 : KHeap T := (h.modify y fun s => { s with parent := some x }).modify x
      fun s => { s with children := s.children ++ [y] }
    have gx : h1.get x = { h.get x with children := (h.get x).children ++ [y] } := by
      simp [h1, Heap.get_modify, hxy]
    have gy : h1.get y = { h.get y with parent := some x } := by
      simp [h1, Heap.get_modify, hxy.symm]
    have go : ∀ n, n ≠ x → n ≠ y → h1.get n = h.get n := by
      intro n a b; simp [h1, Heap.get_modify, a, b]
    have run1 : run (connect (x :: y :: rest)) h = run (connect (y :: rest)) h1 := by
      simp only [connect, run_bind, run_Node_setParent y x h u, Res.bind_ok]; rfl
    obtain ⟨h', e, u', en, ed, ab, fx, la, fr, ot⟩ :=
      ih y h1 ((u.modify _ _).modify _ _) hyr
    refine ⟨h', run1.trans e, u', en, ed, ?_, ?_, ?_, ?_, ?_⟩
    · intro pre a b post el
      cases pre with
      | nil =>
        simp only [List.nil_append, List.cons.injEq] at el
        obtain ⟨rfl, rfl, -⟩ := el
        rw [fx, gy, ot x hx, gx]
        exact ⟨rfl, rfl⟩
      | cons w pre =>
        simp only [List.cons_append, List.cons.injEq] at el
        obtain ⟨rfl, el⟩ := el
        obtain ⟨p1, p2⟩ := ab pre a b post el
        refine ⟨p1, ?_⟩
        rw [p2]
        have hax : a ≠ x := fun e => hx (by rw [el]; simp [e])
        by_cases hay : a = y
        · subst hay; rw [gy]
        · rw [go a hax hay]
    · rw [ot x hx, gx]
    · intro z hz
      have hz' : (y :: rest).getLast? = some z := by simpa using hz
      rw [la z hz']
      have hzm : z ∈ y :: rest := List.mem_of_getLast? hz'
      have hzx : z ≠ x := fun e => hx (e ▸ hzm)
      by_cases hzy : z = y
      · subst hzy; rw [gy]
      · rw [go z hzx hzy]
    · intro n
      rw [fr n]
      by_cases a : n = x
      · subst a; rw [gx]
      · by_cases b : n = y
        · subst b; rw [gy]
        · rw [go n a b]
    · intro n hn
      rw [ot n (fun m => hn (by simp [m])),
        go n (fun e => hn (by simp [e])) (fun e => hn (by simp [e]))]

/-- **C45** (`connect!`).  For distinct nodes it returns; each node becomes the last child of the one
before it; nothing but parents and child lists of these nodes changes. -/
theorem C45_connect (ns : List NodeId) (h : KHeap T) (u : h.Unlocked) (nd : ns.Nodup) :
    ∃ h', run (connect ns) h = .ok () h' ∧
      (∀ pre a b post, ns = pre ++ a :: b :: post →
        (h'.get b).parent = some a ∧ (h'.get a).children = (h.get a).children ++ [b]) ∧
      (∀ x, ns.head? = some x → (h'.get x).parent = (h.get x).parent) ∧
      (∀ z, ns.getLast? = some z → (h'.get z).children = (h.get z).children) ∧
      (∀ n, { h'.get n with parent := none, children := [] } =
        { h.get n with parent := none, children := [] }) ∧
      ∀ n, n ∉ ns → h'.get n = h.get n := by
  cases ns with
  | nil =>
    refine ⟨h, rfl, ?_, fun _ _ => rfl, fun _ _ => rfl, fun _ => rfl, fun _ _ => rfl⟩
    intro pre a b post e; cases pre <;> simp at e
  | cons x rest =>
    obtain ⟨h', e, -, -, -, a, b, c, d, f⟩ := connect_gen x rest h u nd
    exact ⟨h', e, a, fun y hy => by cases hy; exact b, c, d, f⟩

/-- a builder with overridden and partial settings -/
example (t : V3 T) (q : Quat T) (o : Iso T) :
    let j := ([.name "a", .rotation q, .name "b", .origin o, .translation t].foldl NodeBuilder.call
      NodeBuilder.new).finalize
    j.name = "b" ∧ j.origin = ⟨t, o.rot⟩ := ⟨rfl, rfl⟩

end K
