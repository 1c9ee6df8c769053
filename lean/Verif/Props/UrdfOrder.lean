import Verif.Props.Urdf
import Verif.Props.ChainSet
/-!
# C90: the order of the joints of a loaded robot
-/

set_option linter.unusedSectionVars false

namespace K
namespace Urdf
open Prog
variable {F T : Type} [Scalar F] [Scalar T]

/-! ## the order is a function of the file -/

/-- there is only one order -/
theorem InOrder.unique {robot : Robot F} {js xs ys : List (JointTag F)} (a : InOrder robot js xs)
    (b : InOrder robot js ys) : xs = ys := by
  induction a generalizing ys with
  | nil => cases b; rfl
  | cons _ _ ih1 ih2 =>
    cases b with
    | cons hb hr => rw [ih1 hb, ih2 hr]

/-- and it depends only on the order of the joints on each link -/
theorem InOrder.congr {robot robot' : Robot F} (e : ∀ l, robot.jointsAt l = robot'.jointsAt l)
    {js xs : List (JointTag F)} (a : InOrder robot js xs) : InOrder robot' js xs := by
  induction a with
  | nil => exact .nil
  | cons _ _ ih1 ih2 => exact .cons (e _ ▸ ih1) ih2

private theorem tag_converted {cv : F → T} {t : JointTag F} {j : Joint T}
    (e : jointFrom cv t = .ok j) : Converted cv t j := by
  obtain ⟨q1, q2, q3⟩ := C33_joint cv t
  cases e1 : Scalar.eq (t.upper - t.lower) 0 with
  | true => obtain ⟨j', z1, z2, _⟩ := q1 e1; rw [e] at z1; cases z1; exact z2
  | false =>
    cases e2 : Scalar.le (cv t.lower) (cv t.upper) with
    | true => obtain ⟨j', z1, z2, _⟩ := q2 e1 e2; rw [e] at z1; cases z1; exact z2
    | false => obtain ⟨m, z⟩ := q3 e1 e2; rw [e] at z; cases z

private theorem movable_iff {cv : F → T} {h : KHeap T} {n : NodeId} {t : JointTag F}
    (e : jointFrom cv t = .ok (h.get n).joint) : Movable h n ↔ t.moves := by
  have cx := tag_converted e
  simp only [Movable, JointTag.moves]
  by_cases k1 : t.kind = .revolute
  · simp [cx.turning (.inl k1), k1]
  · by_cases k2 : t.kind = .continuous
    · simp [cx.turning (.inr k2), k2]
    · by_cases k3 : t.kind = .prismatic
      · simp [cx.sliding k3, k3]
      · simp [cx.rest k1 k2 k3, k1, k2, k3]

private theorem InOrder.mem {robot : Robot F} {js xs : List (JointTag F)} (a : InOrder robot js xs)
    (hj : ∀ j ∈ js, j ∈ robot.joints) : ∀ x ∈ xs, x ∈ robot.joints := by
  induction a with
  | nil => simp
  | cons _ _ ih1 ih2 =>
    intro x hx
    rcases List.mem_cons.1 hx with rfl | hx
    · exact hj _ (by simp)
    · rcases List.mem_append.1 hx with hx | hx
      · exact ih1 (fun y hy => (List.mem_filter.1 (List.mem_reverse.1 hy)).1) x hx
      · exact ih2 (fun y hy => hj y (by simp [hy])) x hx

/-- what a loaded chain lists, and in which order -/
private theorem TreeOf.listed {cv : F → T} {robot : Robot F} {h : KHeap T} {c : Chain} {root : NodeId}
    {node : String → NodeId} (t : TreeOf cv robot h c root node) :
    ∃ js, InOrder robot robot.baseJoints.reverse js ∧ (∀ j ∈ js, j ∈ robot.joints) ∧
      js.length = robot.joints.length ∧ c.nodes = root :: js.map (node ·.name) ∧
      c.movableNodes = (js.filter fun j => decide j.moves).map (node ·.name) := by
  obtain ⟨js, o, e⟩ := t.order
  have mem : ∀ j ∈ js, j ∈ robot.joints :=
    o.mem fun y hy => (List.mem_filter.1 (List.mem_reverse.1 hy)).1
  refine ⟨js, o, mem, ?_, e, ?_⟩
  · have := t.nodes.length_eq
    rw [e] at this
    simpa using this
  · rw [t.wf.movable, e, List.filter_cons_of_neg, List.filter_map]
    · congr 1
      refine List.filter_congr fun j hj => ?_
      simp only [Function.comp_apply]
      rw [decide_eq_decide]
      exact movable_iff (t.joint j (mem j hj))
    · simp [Movable, t.rootJoint, Joint.new]

private theorem perm_of_names {xs ys : List (JointTag F)} (nx : (xs.map (·.name)).Nodup)
    (sub : ∀ x ∈ xs, x ∈ ys) (len : xs.length = ys.length) : xs.Perm ys :=
  ((List.subperm_of_subset (List.Nodup.of_map _ nx) sub).perm_of_length_le (by omega))

/-- **C90**.  The joints of `Chain::from(robot)` come in the order of the tree, not of the file: first
the (fixed) root, then each joint followed by everything that hangs on its child link, of several joints
on one link the one that comes *last* in the file first.  In every later state, as long as the
tree is not changed, `iter_joints()`, `joint_positions()` and the entries of `set_joint_positions` follow this
order, without the joints that cannot move. -/
theorem C90_order (cv : F → T) (robot : Robot F) (v : ValidTree robot)
    (conv : ∀ j ∈ robot.joints, ∃ jt, jointFrom cv j = .ok jt)
    (h : KHeap T) (u : h.Unlocked) (f : Forest h) :
    ∃ (h' : KHeap T) (c : Chain) (node : String → NodeId) (js : List (JointTag F)),
      (∀ fuel, h.next + robot.joints.length + 2 ≤ fuel →
        run (chainFrom fuel cv robot) h = .ok c h') ∧
      InOrder robot robot.baseJoints.reverse js ∧ js.Perm robot.joints ∧
      (∀ j ∈ js, (h'.get (node j.name)).joint.name = j.name) ∧
      c.nodes = h.next :: js.map (node ·.name) ∧
      c.movableNodes = (js.filter fun j => decide j.moves).map (node ·.name) ∧
      ∀ h2, SameBut h' h2 →
        (∃ jts, run c.iterJoints h2 = .ok jts h2 ∧
          jts.map (·.name) = (js.filter fun j => decide j.moves).map (·.name)) ∧
        run c.jointPositions h2 = .ok ((js.filter fun j => decide j.moves).map fun j =>
          (h2.get (node j.name)).joint.position) h2 := by
  obtain ⟨h', c, root, node, r, t, f', u', new, old, nx, rfl, num⟩ := C32_tree cv robot v conv h u f
  obtain ⟨js, o, mem, len, e1, e2⟩ := t.listed
  have nm : ∀ j ∈ js, (h'.get (node j.name)).joint.name = j.name := fun j hj =>
    (tag_converted (t.joint j (mem j hj))).name
  have nd : (js.map (·.name)).Nodup := by
    have := t.once
    rw [e1, List.nodup_cons] at this
    refine List.Nodup.of_map node ?_
    rw [List.map_map]
    exact this.2
  refine ⟨h', c, node, js, r, o, perm_of_names nd mem len, nm, e1, e2, fun h2 sb => ?_⟩
  have u2 : h2.Unlocked := fun n => by rw [sb.held]; exact u' n
  refine ⟨⟨_, run_mapList_pure fun n _ => run_Node_joint n h2 (u2 n), ?_⟩, ?_⟩
  · rw [e2, List.map_map, List.map_map]
    refine List.map_congr_left fun j hj => ?_
    obtain ⟨p, wt, wv, e⟩ := sb.node (node j.name)
    simp only [Function.comp_apply, e]
    exact nm j (List.mem_filter.1 hj).1
  · rw [run_jointPositions h2 u2 c (sb.chainWf t.wf), e2, List.map_map]
    rfl

/-- **C90** (what of the file matters).  Two files whose joints come in the same order on every link and
at the base, however they are mixed otherwise, give the same order of joints. -/
theorem C90_siblings (cv : F → T) (robot robot' : Robot F) (v : ValidTree robot) (v' : ValidTree robot')
    (conv : ∀ j ∈ robot.joints, ∃ jt, jointFrom cv j = .ok jt)
    (same : ∀ l, robot.jointsAt l = robot'.jointsAt l) (base : robot.baseJoints = robot'.baseJoints)
    (h g : KHeap T) (uh : h.Unlocked) (fh : Forest h) (ug : g.Unlocked) (fg : Forest g) :
    ∃ (h' g' : KHeap T) (c d : Chain),
      (∀ fuel, h.next + robot.joints.length + 2 ≤ fuel → run (chainFrom fuel cv robot) h = .ok c h') ∧
      (∀ fuel, g.next + robot'.joints.length + 2 ≤ fuel → run (chainFrom fuel cv robot') g = .ok d g') ∧
      c.nodes.map (fun n => (h'.get n).joint) = d.nodes.map (fun n => (g'.get n).joint) ∧
      c.movableNodes.map (fun n => (h'.get n).joint) = d.movableNodes.map (fun n => (g'.get n).joint) := by
  have conv' : ∀ j ∈ robot'.joints, ∃ jt, jointFrom cv j = .ok jt := by
    intro j hj
    refine conv j ?_
    have : j ∈ robot'.jointsAt j.parentLink := List.mem_filter.2 ⟨hj, by simp⟩
    rw [← same] at this
    exact (List.mem_filter.1 this).1
  obtain ⟨h', c, root, node, r, t, -⟩ := C32_tree cv robot v conv h uh fh
  obtain ⟨g', d, root', node', r', t', -⟩ := C32_tree cv robot' v' conv' g ug fg
  obtain ⟨js, o, mem, -, e1, e2⟩ := t.listed
  obtain ⟨js', o', mem', -, e1', e2'⟩ := t'.listed
  have ej : js = js' := by
    have z := o.congr same
    rw [base] at z
    exact z.unique o'
  subst ej
  have jt : ∀ j ∈ js, (h'.get (node j.name)).joint = (g'.get (node' j.name)).joint := by
    intro j hj
    have a := t.joint j (mem j hj)
    have b := t'.joint j (mem' j hj)
    rw [a] at b
    injection b
  refine ⟨h', g', c, d, r, r', ?_, ?_⟩
  · rw [e1, e1', List.map_cons, List.map_cons, t.rootJoint, t'.rootJoint, List.map_map, List.map_map]
    congr 1
    exact List.map_congr_left fun j hj => jt j hj
  · rw [e2, e2', List.map_map, List.map_map]
    exact List.map_congr_left fun j hj => jt j (List.mem_filter.1 hj).1

/-- exactly one link is the child link of no joint -/
def OneBase (robot : Robot F) : Prop :=
  ∃ l ∈ robot.links, (∀ j ∈ robot.joints, j.childLink ≠ l.name) ∧
    ∀ l' ∈ robot.links, (∀ j ∈ robot.joints, j.childLink ≠ l'.name) → l' = l

private theorem some_of_live {h : KHeap T} {n p : NodeId} (e : liveParent h n = some p) :
    (h.get n).parent = some p := by
  unfold liveParent at e
  split at e
  · rename_i q eq
    split at e
    · cases e
    · rw [eq]; exact e
  · cases e

private theorem some_of_liveMimic {h : KHeap T} {n p : NodeId} (e : liveMimic h n = some p) :
    (h.get n).mimicParent = some p := by
  unfold liveMimic at e
  split at e
  · rename_i q eq
    split at e
    · cases e
    · rw [eq]; exact e
  · cases e

/-- **C90** (links).  In which order the links come in the file does not matter at all, as long as there
is only one base link: the same nodes with the same contents are created. -/
theorem C90_links (cv : F → T) (robot : Robot F) (v : ValidTree robot) (ob : OneBase robot)
    (conv : ∀ j ∈ robot.joints, ∃ jt, jointFrom cv j = .ok jt)
    (links : List (LinkTag F)) (perm : links.Perm robot.links)
    (h : KHeap T) (u : h.Unlocked) (f : Forest h)
    (fuel : Nat) (hf : h.next + robot.joints.length + 2 ≤ fuel) :
    run (chainFrom fuel cv { robot with links := links }) h = run (chainFrom fuel cv robot) h := by
  have v' : ValidTree ({ robot with links := links } : Robot F) :=
    ⟨v.jointNames, (perm.map _).nodup_iff.2 v.linkNames, v.oneParent,
      fun j hj => by
        obtain ⟨l, hl, e⟩ := v.declared j hj
        exact ⟨l, perm.mem_iff.2 hl, e⟩, v.acyclic, v.masters⟩
  obtain ⟨h1, c, root, node, r, t, f1, u1, new, old, nx, rfl, num⟩ := C32_tree cv robot v conv h u f
  obtain ⟨h2, d, root', node', r', t', f2, u2, new', old', nx', rfl, num'⟩ :=
    C32_tree cv { robot with links := links } v' conv h u f
  have nn : ∀ j ∈ robot.joints, node' j.name = node j.name := by
    intro j hj
    obtain ⟨i, hi⟩ := List.mem_iff_getElem?.1 hj
    rw [num i j hi, num' i j hi]
  obtain ⟨js, o, mem, -, e1, e2⟩ := t.listed
  obtain ⟨js', o', mem', -, e1', e2'⟩ := t'.listed
  have ej : js' = js := by
    have z := InOrder.congr (robot := { robot with links := links }) (robot' := robot) (fun _ => rfl) o'
    exact z.unique o
  subst ej
  have en : d.nodes = c.nodes := by
    rw [e1, e1']; congr 1; exact List.map_congr_left fun j hj => nn j (mem j hj)
  have em : d.movableNodes = c.movableNodes := by
    rw [e2, e2']; exact List.map_congr_left fun j hj => nn j (mem j (List.mem_filter.1 hj).1)
  have ec : d = c := by
    have a := t.wf.dof
    have b := t'.wf.dof
    cases c; cases d
    simp only at en em a b
    subst en em
    rw [a, b]
  have same : ∀ j ∈ robot.joints, h2.get (node j.name) = h1.get (node j.name) := by
    intro j hj
    have e0 := nn j hj
    have a1 : (h2.get (node j.name)).parent = (h1.get (node j.name)).parent := by
      by_cases hk : ∃ k ∈ robot.joints, k.childLink = j.parentLink
      · obtain ⟨k, hk, e⟩ := hk
        have a := some_of_live (t.parent j hj k hk e)
        have b := some_of_live (t'.parent j hj k hk e)
        rw [e0, nn k hk] at b
        rw [a, b]
      · have hk' : ∀ k ∈ robot.joints, k.childLink ≠ j.parentLink := fun k a b => hk ⟨k, a, b⟩
        have a := some_of_live (t.parentRoot j hj hk')
        have b := some_of_live (t'.parentRoot j hj hk')
        rw [e0] at b
        rw [a, b]
    have a2 : (h2.get (node j.name)).children = (h1.get (node j.name)).children := by
      have a := t.children j hj
      have b := t'.children j hj
      rw [e0] at b
      rw [a, b]
      exact List.map_congr_left fun k hk => nn k (List.mem_filter.1 hk).1
    have a3 : (h2.get (node j.name)).joint = (h1.get (node j.name)).joint := by
      have a := t.joint j hj
      have b := t'.joint j hj
      rw [e0, a] at b
      injection b with b
      exact b.symm
    have a4 : (h2.get (node j.name)).mimicParent = (h1.get (node j.name)).mimicParent ∧
        (h2.get (node j.name)).mimic = (h1.get (node j.name)).mimic := by
      cases hm : j.mimic with
      | none =>
        have a := t.noMimic j hj hm
        have b := t'.noMimic j hj hm
        rw [e0] at b
        rw [a.1, a.2, b.1, b.2]; exact ⟨rfl, rfl⟩
      | some m =>
        obtain ⟨k, hk, ek⟩ := v.masters j hj m hm
        have a := t.mimic j hj m hm
        have b := t'.mimic j hj m hm
        rw [e0, ← ek, nn k hk] at b
        rw [← ek] at a
        rw [some_of_liveMimic a.1, some_of_liveMimic b.1, a.2, b.2]; exact ⟨rfl, rfl⟩
    have a5 : (h2.get (node j.name)).mimicChildren = (h1.get (node j.name)).mimicChildren := by
      have a := t.followers j hj
      have b := t'.followers j hj
      rw [e0] at b
      rw [a, b]
      exact List.map_congr_left fun k hk => nn k (List.mem_filter.1 hk).1
    have a6 : (h2.get (node j.name)).link = (h1.get (node j.name)).link := by
      by_cases hl : ∃ l ∈ robot.links, l.name = j.childLink
      · obtain ⟨l, hl, e⟩ := hl
        have a := t.link j hj l hl e
        have b := t'.link j hj l (perm.mem_iff.2 hl) e
        rw [e0] at b
        rw [a, b]
      · have a := t.noLink j hj fun l a b => hl ⟨l, a, b⟩
        have b := t'.noLink j hj fun l a b => hl ⟨l, perm.mem_iff.1 a, b⟩
        rw [e0] at b
        rw [a, b]
    revert a1 a2 a3 a4 a5 a6
    cases h2.get (node j.name)
    cases h1.get (node j.name)
    rintro rfl rfl rfl ⟨h4, h4'⟩ rfl rfl
    simp only at h4 h4'
    subst h4 h4'
    rfl
  have sameRoot : h2.get h.next = h1.get h.next := by
    have a1 : (h2.get h.next).parent = (h1.get h.next).parent := by rw [t.rootParent, t'.rootParent]
    have a2 : (h2.get h.next).children = (h1.get h.next).children := by
      rw [t.rootChildren, t'.rootChildren]
      exact List.map_congr_left fun k hk => nn k (List.mem_filter.1 hk).1
    have a3 : (h2.get h.next).joint = (h1.get h.next).joint := by rw [t.rootJoint, t'.rootJoint]
    have a4 : (h2.get h.next).mimicParent = (h1.get h.next).mimicParent := by
      rw [t.rootMimic.1, t'.rootMimic.1]
    have a4' : (h2.get h.next).mimic = (h1.get h.next).mimic := by
      rw [t.rootMimic.2, t'.rootMimic.2]
    have a5 : (h2.get h.next).mimicChildren = (h1.get h.next).mimicChildren := by
      rw [t.rootFollowers, t'.rootFollowers]
    have a6 : (h2.get h.next).link = (h1.get h.next).link := by
      obtain ⟨l, hl, hb, hu⟩ := ob
      rw [t.baseLink l hl hb hu,
        t'.baseLink l (perm.mem_iff.2 hl) hb fun l' hl' => hu l' (perm.mem_iff.1 hl')]
    revert a1 a2 a3 a4 a4' a5 a6
    cases h2.get h.next
    cases h1.get h.next
    rintro rfl rfl rfl rfl rfl rfl rfl
    rfl
  have eh : h2 = h1 := by
    have g : h2.get = h1.get := by
      funext n
      by_cases hn : n ∈ c.nodes
      · rw [e1] at hn
        rcases List.mem_cons.1 hn with rfl | hn
        · exact sameRoot
        · obtain ⟨j, hj, rfl⟩ := List.mem_map.1 hn
          exact same j (mem j hj)
      · rw [(old n hn).1, (old' n (en ▸ hn)).1]
    have dd : h2.dead = h1.dead := by
      funext n
      by_cases hn : n ∈ c.nodes
      · rw [(new n hn).2.2, (new' n (en ▸ hn)).2.2]
      · rw [(old n hn).2, (old' n (en ▸ hn)).2]
    have hh : h2.held = h1.held := by
      funext n
      rw [u1 n, u2 n]
    revert g dd hh nx nx'
    cases h2; cases h1
    rintro hx hx' hg hd hh
    simp only at hg hd hh hx hx'
    subst hg hd hh
    rw [hx, hx']
  rw [r fuel hf, r' fuel hf, ec, eh]

/-! ## cases -/

/-- the order of the branching robot: `right`, the last joint of the file, comes before `left` -/
theorem exRobot_order {js : List (JointTag ℝ)} (o : InOrder exRobot exRobot.baseJoints.reverse js) :
    js.map (·.name) = ["lift", "right", "left"] := by
  have b : exRobot.baseJoints.reverse = [exRobot.joints[0]] := by
    simp [Robot.baseJoints, exRobot]
  have k0 : (exRobot.jointsAt "torso").reverse = [exRobot.joints[2], exRobot.joints[1]] := by
    simp [Robot.jointsAt, exRobot]
  have k1 : (exRobot.jointsAt "lhand").reverse = [] := by simp [Robot.jointsAt, exRobot]
  have k2 : (exRobot.jointsAt "rhand").reverse = [] := by simp [Robot.jointsAt, exRobot]
  have z : InOrder exRobot exRobot.baseJoints.reverse
      [exRobot.joints[0], exRobot.joints[2], exRobot.joints[1]] := by
    rw [b]
    refine InOrder.cons (below := [exRobot.joints[2], exRobot.joints[1]]) (rest := []) ?_ .nil
    rw [show (exRobot.joints[0]).childLink = "torso" from rfl, k0]
    refine InOrder.cons (below := []) (rest := [exRobot.joints[1]]) ?_ (.cons (below := []) (rest := []) ?_ .nil)
    · rw [show (exRobot.joints[2]).childLink = "rhand" from rfl, k2]; exact .nil
    · rw [show (exRobot.joints[1]).childLink = "lhand" from rfl, k1]; exact .nil
  rw [o.unique z]
  rfl

/-- **C90** on the branching robot: `joint_positions()` lists `lift`, `right`, `left` although the file
lists `lift`, `left`, `right`. -/
theorem C90_not_file_order (h : KHeap ℝ) (u : h.Unlocked) (f : Forest h) :
    ∃ (h' : KHeap ℝ) (c : Chain) (jts : List (Joint ℝ)),
      (∀ fuel, h.next + 5 ≤ fuel → run (chainFrom fuel (T := ℝ) id exRobot) h = .ok c h') ∧
      run c.iterJoints h' = .ok jts h' ∧ jts.map (·.name) = ["lift", "right", "left"] ∧
      exRobot.joints.map (·.name) = ["lift", "left", "right"] := by
  obtain ⟨h', c, node, js, r, o, p, -, -, -, rest⟩ :=
    C90_order (T := ℝ) id exRobot exRobot_valid exRobot_converts h u f
  obtain ⟨⟨jts, e1, e2⟩, -⟩ := rest h' (SameBut.refl _)
  refine ⟨h', c, jts, fun fuel hf => r fuel (by simpa [exRobot] using hf), e1, ?_, rfl⟩
  rw [e2, List.filter_eq_self.2, exRobot_order o]
  intro j hj
  have : j ∈ exRobot.joints := p.mem_iff.1 hj
  simp only [exRobot, List.mem_cons, List.not_mem_nil, or_false] at this
  rcases this with rfl | rfl | rfl <;> simp [JointTag.moves]

/-- the branching robot with `lift` at the end of the file -/
noncomputable def exLate : Robot ℝ :=
  ⟨[exRobot.joints[1], exRobot.joints[2], exRobot.joints[0]], exRobot.links⟩

/-- it meets the hypotheses of **C90_siblings**, so it has the same order of joints -/
example : (∀ l, exRobot.jointsAt l = exLate.jointsAt l) ∧ exRobot.baseJoints = exLate.baseJoints ∧
    exRobot.joints ≠ exLate.joints := by
  refine ⟨fun l => ?_, ?_, ?_⟩
  · by_cases e : l = "base"
    · subst e; simp [Robot.jointsAt, exLate, exRobot]
    · by_cases e' : l = "torso"
      · subst e'; simp [Robot.jointsAt, exLate, exRobot]
      · have e1 : ¬ "base" = l := fun z => e z.symm
        have e2 : ¬ "torso" = l := fun z => e' z.symm
        simp [Robot.jointsAt, exLate, exRobot, e1, e2]
  · simp [Robot.baseJoints, exLate, exRobot]
  · simp [exLate, exRobot]

/-- the branching robot has one base link, so **C90_links** applies to it -/
example : OneBase exRobot :=
  ⟨exLink "base", by simp [exRobot], by simp [exRobot, exLink], by
    intro l hl hb
    simp only [exRobot, List.mem_cons, List.not_mem_nil, or_false] at hl hb
    rcases hl with rfl | rfl | rfl | rfl
    · exact absurd rfl (hb _ (.inr (.inl rfl)))
    · exact absurd rfl (hb _ (.inr (.inr rfl)))
    · exact absurd rfl (hb _ (.inl rfl))
    · rfl⟩

/-- **C90** (two base links): with more than one base link the order of the links does matter, the last
one becomes the link of the root and the other is lost. -/
theorem C90_two_bases (cv : F → T) (a b : LinkTag F) (h : KHeap T) (u : h.Unlocked)
    (fuel : Nat) : ∃ c h', run (chainFrom (h.next + 2 + fuel) cv ⟨[], [a, b]⟩) h = .ok c h' ∧
      c.nodes = [h.next] ∧ (h'.get h.next).link = some (linkFrom cv b) := by
  have rr : run (NodeBuilder.intoNode (NodeBuilder.new.call (.name rootJointName) : NodeBuilder T)) h =
      .ok h.next (h.push (NodeImpl.fresh (NodeBuilder.new.call (.name rootJointName) :
        NodeBuilder T).finalize)) := by
    rw [NodeBuilder.intoNode, run_Node_new]
  generalize hh : h.push (NodeImpl.fresh (NodeBuilder.new.call (.name rootJointName) :
    NodeBuilder T).finalize) = h0 at rr
  have u0 : h0.Unlocked := by subst hh; exact fun n => u n
  have k0 : (h0.get h.next).children = [] := by subst hh; simp [Heap.push, NodeImpl.fresh]
  have s1 := run_Node_setLink h.next (some (linkFrom cv a)) h0 (u0 _)
  generalize hh1 : h0.modify h.next (fun s => { s with link := some (linkFrom cv a) }) = h1 at s1
  have u1 : h1.Unlocked := hh1 ▸ u0.modify _ _
  have s2 := run_Node_setLink h.next (some (linkFrom cv b)) h1 (u1 _)
  generalize hh2 : h1.modify h.next (fun s => { s with link := some (linkFrom cv b) }) = h2 at s2
  have u2 : h2.Unlocked := hh2 ▸ u1.modify _ _
  have k2 : (h2.get h.next).children = [] := by
    rw [← hh2, ← hh1]; simp [k0]
  have l2 : (h2.get h.next).link = some (linkFrom cv b) := by
    rw [← hh2]; simp
  have d := run_descendants h2 u2 (h.next + 2 + fuel) [.node h.next []]
    (by intro t ht; simp only [List.mem_singleton] at ht; subst ht; exact .mk _ _ k2 (by simp))
    (by simp [RTree.pre_node]; omega)
  simp only [List.map_cons, List.map_nil, RTree.id, List.flatMap_cons, List.flatMap_nil, List.append_nil,
    RTree.pre_node, List.reverse_nil] at d
  obtain ⟨c, e, en, -⟩ := C07_from_nodes h2 u2 [h.next]
  refine ⟨c, h2, ?_, en, l2⟩
  simp only [chainFrom, run_bind, rr, Res.bind_ok, makeNodes, run_ret, forEach, connectLink, Tables.empty, s1, s2,
    Chain.fromRoot, d, e]

/-- two files with the same joints and two base links, in either order -/
example (cv : F → T) (h : KHeap T) (u : h.Unlocked) :
    (∃ c h', run (chainFrom (h.next + 2) cv (⟨[], [exLink "a", exLink "b"]⟩ : Robot F)) h = .ok c h' ∧
      (h'.get h.next).link.map (·.name) = some "b") ∧
    (∃ c h', run (chainFrom (h.next + 2) cv (⟨[], [exLink "b", exLink "a"]⟩ : Robot F)) h = .ok c h' ∧
      (h'.get h.next).link.map (·.name) = some "a") := by
  obtain ⟨c, h1, e1, -, l1⟩ := C90_two_bases cv (exLink "a" : LinkTag F) (exLink "b") h u 0
  obtain ⟨d, h2, e2, -, l2⟩ := C90_two_bases cv (exLink "b" : LinkTag F) (exLink "a") h u 0
  exact ⟨⟨c, h1, e1, by rw [l1]; rfl⟩, ⟨d, h2, e2, by rw [l2]; rfl⟩⟩

end Urdf
end K
