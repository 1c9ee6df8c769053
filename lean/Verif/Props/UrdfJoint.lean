import Verif.Model.Urdf
import Verif.Spec.Geom
import Mathlib.Tactic.Linarith
import Mathlib.Tactic.Positivity
import Mathlib.Tactic.FieldSimp
import Mathlib.Tactic.Ring
import Mathlib.Tactic.NormNum
/-!
# C33–C35: URDF joints, and the two name maps
-/

namespace K
namespace Urdf
variable {F T : Type} [Scalar F] [Scalar T]

/-! ## C33 -/

/-- what a converted joint has in common with its tag, whatever the limits -/
structure Converted (cv : F → T) (t : JointTag F) (j : Joint T) : Prop where
  name : j.name = t.name
  translation : j.origin.trans = ⟨cv t.origin.xyz.x, cv t.origin.xyz.y, cv t.origin.xyz.z⟩
  rotation : j.origin.rot = quaternionFrom cv t.origin.rpy
  turning : t.kind = .revolute ∨ t.kind = .continuous → j.jointType = .rotational (axisFrom cv t.axis)
  sliding : t.kind = .prismatic → j.jointType = .linear (axisFrom cv t.axis)
  rest : t.kind ≠ .revolute → t.kind ≠ .continuous → t.kind ≠ .prismatic → j.jointType = .fixed
  position : j.position = 0
  velocity : j.velocity = 0
  noCache : j.worldTransformCache = none ∧ j.worldVelocityCache = none

/-- **C33** (all scalars): name, origin and joint type carry over; the limits are absent exactly when
`upper - lower == 0`, otherwise they are `[lower, upper]` when `lower <= upper`; and otherwise
(`lower > upper`, or a NaN) the conversion panics. -/
theorem C33_joint (cv : F → T) (t : JointTag F) :
    (Scalar.eq (t.upper - t.lower) 0 = true →
      ∃ j, jointFrom cv t = .ok j ∧ Converted cv t j ∧ j.limits = none) ∧
    (Scalar.eq (t.upper - t.lower) 0 = false → Scalar.le (cv t.lower) (cv t.upper) = true →
      ∃ j, jointFrom cv t = .ok j ∧ Converted cv t j ∧ j.limits = some ⟨cv t.lower, cv t.upper⟩) ∧
    (Scalar.eq (t.upper - t.lower) 0 = false → Scalar.le (cv t.lower) (cv t.upper) = false →
      ∃ m, jointFrom cv t = .error m) := by
  have conv : ∀ l, Converted cv t (NodeBuilder.finalize
      (((((NodeBuilder.new.call (.name t.name)).call (.jointType (jointTypeFrom cv t))).call
      (.limits l)).call (.rotation (quaternionFrom cv t.origin.rpy))).call
      (.translation (translationFrom cv t.origin.xyz)))) := by
    intro l
    refine ⟨rfl, rfl, rfl, ?_, ?_, ?_, rfl, rfl, rfl, rfl⟩
    · rintro (e | e) <;> simp [NodeBuilder.finalize, NodeBuilder.call, Joint.new, Joint.setOrigin,
        jointTypeFrom, e]
    · intro e; simp [NodeBuilder.finalize, NodeBuilder.call, Joint.new, Joint.setOrigin,
        jointTypeFrom, e]
    · intro a b c
      cases e : t.kind <;> simp_all [NodeBuilder.finalize, NodeBuilder.call, Joint.new,
        Joint.setOrigin, jointTypeFrom]
  refine ⟨fun e => ⟨_, ?_, conv none, rfl⟩,
    fun e f => ⟨_, ?_, conv (some ⟨cv t.lower, cv t.upper⟩), rfl⟩, fun e f => ⟨"min must be less than or equal to max", ?_⟩⟩
  · simp [jointFrom, limitFrom, e, Bind.bind, Except.bind, Pure.pure, Except.pure]
  · simp [jointFrom, limitFrom, Range.new, e, f, Bind.bind, Except.bind, Pure.pure, Except.pure]
  · simp [jointFrom, limitFrom, Range.new, e, f, Bind.bind, Except.bind]

/-- **C33** (exact arithmetic): `lower = upper` gives no limits, `lower < upper` gives them, and
`lower > upper` panics. -/
theorem C33_limits_real (t : JointTag ℝ) :
    (t.lower = t.upper → ∃ j, jointFrom (T := ℝ) id t = .ok j ∧ j.limits = none) ∧
    (t.lower < t.upper → ∃ j, jointFrom (T := ℝ) id t = .ok j ∧
      j.limits = some ⟨t.lower, t.upper⟩) ∧
    (t.upper < t.lower → ∃ m, jointFrom (T := ℝ) id t = .error m) := by
  obtain ⟨a, b, c⟩ := C33_joint (T := ℝ) id t
  have ne : t.upper - t.lower ≠ 0 → Scalar.eq (t.upper - t.lower) 0 = false := by
    intro e; simp [Scalar.eq, e]
  refine ⟨fun e => ?_, fun e => ?_, fun e => ?_⟩
  · obtain ⟨j, x, _, y⟩ := a (by rw [real_eq, e, sub_self]); exact ⟨j, x, y⟩
  · obtain ⟨j, x, _, y⟩ := b (ne (by intro z; linarith)) (by simpa using le_of_lt e)
    exact ⟨j, x, y⟩
  · exact c (ne (by intro z; linarith)) (by simpa using e)

/-- a revolute joint with limits [-1, 2] -/
example : ∃ j, jointFrom (T := ℝ) id
    (⟨"elbow", .revolute, ⟨⟨0, 0, 3⟩, ⟨0, 0, 0⟩⟩, "arm", "hand", ⟨0, 0, 2⟩, -1, 2, none⟩ : JointTag ℝ) =
      .ok j ∧ j.limits = some ⟨-1, 2⟩ := (C33_limits_real _).2.1 (by norm_num)

/-- **C33** (NaN): a NaN limit panics. -/
theorem C33_limits_nan (t : JointTag NReal) (n : t.lower = .nan ∨ t.upper = .nan) :
    ∃ m, jointFrom (T := NReal) id t = .error m := by
  refine (C33_joint (T := NReal) id t).2.2 ?_ ?_
  · rcases n with e | e
    · rw [e]; cases t.upper <;> rfl
    · rw [e]; rfl
  · rcases n with e | e <;> simp [e]

/-- **C33** (axis): over the reals the axis of a converted joint has length one and points along the
axis of the tag, provided that one is not zero. -/
theorem C33_axis (a : V3 ℝ) (nz : a ≠ V3.zero) :
    (axisFrom (T := ℝ) id a).IsUnit ∧ ∃ s, 0 < s ∧ a = (axisFrom (T := ℝ) id a).scale s := by
  have pos : 0 < a.x * a.x + a.y * a.y + a.z * a.z := by
    by_contra hn
    have hx := mul_self_nonneg a.x
    have hy := mul_self_nonneg a.y
    have hz := mul_self_nonneg a.z
    have x0 : a.x = 0 := mul_self_eq_zero.1 (by linarith)
    have y0 : a.y = 0 := mul_self_eq_zero.1 (by linarith)
    have z0 : a.z = 0 := mul_self_eq_zero.1 (by linarith)
    apply nz
    cases a
    simp_all [V3.zero]
  have nn : (a.norm : ℝ) = Real.sqrt (a.x * a.x + a.y * a.y + a.z * a.z) := rfl
  have sp : 0 < (a.norm : ℝ) := by rw [nn]; exact Real.sqrt_pos.2 pos
  have sq : a.norm * a.norm = a.x * a.x + a.y * a.y + a.z * a.z := by
    rw [nn]; exact Real.mul_self_sqrt pos.le
  have e : axisFrom (T := ℝ) id a = ⟨a.x / a.norm, a.y / a.norm, a.z / a.norm⟩ := rfl
  rw [e]
  refine ⟨?_, a.norm, sp, ?_⟩
  · have ne := sp.ne'
    simp only [V3.IsUnit]
    field_simp
    rw [pow_two, pow_two, pow_two, pow_two, sq]
  · have ne := sp.ne'
    cases a
    simp only [V3.scale, V3.mk.injEq]
    refine ⟨?_, ?_, ?_⟩ <;> field_simp

/-- **C33** (axis, refuted for a zero axis): a tag with axis `0 0 0` converts without complaint, and
the axis of the joint is NaN. -/
theorem C33_zero_axis : axisFrom (T := NReal) id ⟨.num 0, .num 0, .num 0⟩ = ⟨.nan, .nan, .nan⟩ := by
  have n : (V3.norm (T := NReal) ⟨.num 0, .num 0, .num 0⟩) =
      .num (Real.sqrt (0 * 0 + 0 * 0 + 0 * 0)) := rfl
  have z : Real.sqrt (0 * 0 + 0 * 0 + 0 * 0) = 0 := by simp
  have d : ∀ a : NReal, a / NReal.num 0 = NReal.nan := fun a => if_pos rfl
  have e : axisFrom (T := NReal) id ⟨.num 0, .num 0, .num 0⟩ =
      ⟨.num 0 / V3.norm (T := NReal) ⟨.num 0, .num 0, .num 0⟩,
       .num 0 / V3.norm (T := NReal) ⟨.num 0, .num 0, .num 0⟩,
       .num 0 / V3.norm (T := NReal) ⟨.num 0, .num 0, .num 0⟩⟩ := rfl
  rw [e, n, z, d]

/-- **C33** (mimic): given values are converted, missing ones default to multiplier 1, offset 0. -/
theorem C33_mimic (cv : F → T) (m : MimicTag F) :
    (∀ x, m.multiplier = some x → (mimicFrom cv m).multiplier = cv x) ∧
    (m.multiplier = none → (mimicFrom cv m).multiplier = cv (Scalar.lit 1 1)) ∧
    (∀ x, m.offset = some x → (mimicFrom cv m).origin = cv x) ∧
    (m.offset = none → (mimicFrom cv m).origin = cv 0) := by
  refine ⟨?_, ?_, ?_, ?_⟩ <;> intros <;> simp_all [mimicFrom]

/-- **C33** (mimic, exact arithmetic): the follower position is `multiplier * x + offset` with the
defaults 1 and 0. -/
theorem C33_mimic_real (m : MimicTag ℝ) (x : ℝ) :
    (mimicFrom (T := ℝ) id m).mimicPosition x = x * (m.multiplier.getD 1) + m.offset.getD 0 := by
  have l : (Scalar.lit 1 1 : ℝ) = 1 := by simp [Scalar.lit]
  simp [mimicFrom, Mimic.mimicPosition, l]

/-! ## C34, C35 -/

section maps

/-- the last entry of a list satisfying `p` -/
def lastWith {α : Type} (p : α → Bool) (l : List α) : Option α := (l.filter p).getLast?

private theorem lastWith_snoc {α : Type} (p : α → Bool) (l : List α) (x : α) :
    lastWith p (l ++ [x]) = if p x then some x else lastWith p l := by
  by_cases h : p x <;> simp [lastWith, h]

private theorem foldl_insert {α : Type} (key val : α → String) (l : List α) (m0 : SMap String)
    (k : String) :
    l.foldl (fun m a => SMap.insert m (key a) (val a)) m0 k =
      ((lastWith (fun a => key a = k) l).map val).or (m0 k) := by
  induction l using List.reverseRecOn with
  | nil => simp [lastWith]
  | append_singleton l x ih =>
    rw [List.foldl_append, lastWith_snoc]
    simp only [List.foldl_cons, List.foldl_nil, SMap.insert, ih]
    by_cases h : key x = k
    · simp [h]
    · have : ¬ k = key x := fun e => h e.symm
      simp [h, this]

private theorem lastWith_unique {α : Type} (key : α → String) (l : List α) (nd : (l.map key).Nodup)
    {a : α} (ha : a ∈ l) : lastWith (fun b => key b = key a) l = some a := by
  induction l using List.reverseRecOn with
  | nil => cases ha
  | append_singleton l x ih =>
    rw [lastWith_snoc]
    rw [List.map_append, List.nodup_append] at nd
    rcases List.mem_append.1 ha with h | h
    · have : key x ≠ key a := fun e =>
        nd.2.2 (key a) (List.mem_map_of_mem h) (key x) (by simp) e.symm
      simp [this, ih nd.1 h]
    · rw [List.mem_singleton] at h; subst h; simp

private theorem lastWith_none {α : Type} (p : α → Bool) (l : List α) (h : ∀ a ∈ l, p a = false) :
    lastWith p l = none := by
  have : l.filter p = [] := by simpa [List.filter_eq_nil_iff] using h
  simp [lastWith, this]

/-- **C34** (any robot): a link is mapped to the last joint it is the child of; a declared link that
is nobody's child to `"root"`; any other name to nothing. -/
theorem C34_value (robot : Robot F) (k : String) :
    linkToJointMap robot k =
      ((lastWith (fun j : JointTag F => j.childLink = k) robot.joints).map (·.name)).or
        (if k ∈ robot.links.map (·.name) then some "root" else none) := by
  have hl : ∀ (ls : List (LinkTag F)) (m : SMap String),
      ls.foldl (fun m l => if (m l.name).isNone then SMap.insert m l.name rootJointName else m) m k =
        (m k).or (if k ∈ ls.map (·.name) then some "root" else none) := by
    intro ls
    induction ls with
    | nil => intro m; simp
    | cons l ls ih =>
      intro m
      rw [List.foldl_cons, ih]
      by_cases hk : k = l.name
      · subst hk
        cases e : m l.name with
        | none => simp [SMap.insert, rootJointName, e]
        | some v => simp [e]
      · cases e : m l.name with
        | none => simp [SMap.insert, hk]
        | some v => simp [hk]
  rw [linkToJointMap, hl, foldl_insert]
  simp

/-- **C34**: for distinct child links, a link is mapped to the joint it is the child of, every other
declared link to `"root"`, and nothing else is mapped. -/
theorem C34_link_to_joint (robot : Robot F) (distinct : (robot.joints.map (·.childLink)).Nodup) :
    (∀ j ∈ robot.joints, linkToJointMap robot j.childLink = some j.name) ∧
    (∀ l ∈ robot.links, (∀ j ∈ robot.joints, j.childLink ≠ l.name) →
      linkToJointMap robot l.name = some "root") ∧
    (∀ k, (∀ j ∈ robot.joints, j.childLink ≠ k) → (∀ l ∈ robot.links, l.name ≠ k) →
      linkToJointMap robot k = none) := by
  refine ⟨fun j hj => ?_, fun l hl hn => ?_, fun k hj hl => ?_⟩
  · rw [C34_value, lastWith_unique (·.childLink) _ distinct hj]; rfl
  · rw [C34_value, lastWith_none _ _ (by simpa using hn), if_pos (List.mem_map_of_mem hl)]; rfl
  · rw [C34_value, lastWith_none _ _ (by simpa using hj), if_neg]
    · rfl
    · intro h
      obtain ⟨l, a, b⟩ := List.mem_map.1 h
      exact hl l a b

/-- **C35**: for distinct joint names, none of them `"root"`, and no link called `"root"`: each joint
is mapped to its child link, `"root"` to the last declared link whose name is not the name of a
joint, and nothing else is mapped. -/
theorem C35_joint_to_link (robot : Robot F) (distinct : (robot.joints.map (·.name)).Nodup)
    (noRoot : ∀ j ∈ robot.joints, j.name ≠ "root") (noRootLink : ∀ l ∈ robot.links, l.name ≠ "root") :
    (∀ j ∈ robot.joints, jointToLinkMap robot j.name = some j.childLink) ∧
    jointToLinkMap robot "root" =
      (lastWith (fun l : LinkTag F => l.name ∉ robot.joints.map (·.name)) robot.links).map (·.name) ∧
    (∀ k, k ≠ "root" → (∀ j ∈ robot.joints, j.name ≠ k) → jointToLinkMap robot k = none) := by
  let m0 : SMap String :=
    robot.joints.foldl (fun m j => SMap.insert m j.name j.childLink) (fun _ => none)
  have hm : ∀ k, m0 k = (lastWith (fun j : JointTag F => j.name = k) robot.joints).map (·.childLink) := by
    intro k; simp [m0, foldl_insert]
  have hnone : ∀ k, (∀ j ∈ robot.joints, j.name ≠ k) → m0 k = none := by
    intro k hk; rw [hm, lastWith_none _ _ (by simpa using hk)]; rfl
  have hsome : ∀ j ∈ robot.joints, m0 j.name = some j.childLink := by
    intro j hj; rw [hm, lastWith_unique (·.name) _ distinct hj]; rfl
  have key : ∀ ls : List (LinkTag F), (∀ l ∈ ls, l.name ≠ "root") →
      (∀ k, k ≠ "root" → ls.foldl (fun m l => if (m l.name).isNone then
        SMap.insert m rootJointName l.name else m) m0 k = m0 k) ∧
      ls.foldl (fun m l => if (m l.name).isNone then
        SMap.insert m rootJointName l.name else m) m0 "root" =
      (lastWith (fun l : LinkTag F => l.name ∉ robot.joints.map (·.name)) ls).map (·.name) := by
    intro ls
    induction ls using List.reverseRecOn with
    | nil => intro _; exact ⟨fun _ _ => rfl, hnone _ noRoot⟩
    | append_singleton ls l ih =>
      intro hr
      obtain ⟨a, b⟩ := ih (fun x hx => hr x (by simp [hx]))
      have lr : l.name ≠ "root" := hr l (by simp)
      rw [List.foldl_append, lastWith_snoc]
      simp only [List.foldl_cons, List.foldl_nil]
      rw [a l.name lr]
      by_cases hj : l.name ∈ robot.joints.map (·.name)
      · obtain ⟨j, hj1, hj2⟩ := List.mem_map.1 hj
        have : m0 l.name = some j.childLink := by rw [← hj2]; exact hsome j hj1
        have hd : (decide (l.name ∉ robot.joints.map (·.name))) = false := by simpa using hj
        simp only [this, hd, Option.isNone_some, Bool.false_eq_true, if_false]
        exact ⟨a, b⟩
      · have : m0 l.name = none := hnone _ (fun j hj1 hj2 => hj (hj2 ▸ List.mem_map_of_mem hj1))
        refine ⟨fun k hk => ?_, ?_⟩
        · simp only [this, Option.isNone_none, if_true, SMap.insert, rootJointName, hk, if_false]
          exact a k hk
        · have hd : (decide (l.name ∉ robot.joints.map (·.name))) = true := by simpa using hj
          simp only [this, hd]
          simp [SMap.insert, rootJointName]
  obtain ⟨a, b⟩ := key robot.links noRootLink
  refine ⟨fun j hj => ?_, b, fun k hk hj => ?_⟩
  · exact (a _ (noRoot j hj)).trans (hsome j hj)
  · exact (a k hk).trans (hnone k hj)

/-- a link with nothing but a name -/
def exLink (name : String) : LinkTag F :=
  ⟨name, ⟨⟨⟨0, 0, 0⟩, ⟨0, 0, 0⟩⟩, 0, 0, 0, 0, 0, 0, 0⟩, [], []⟩

/-- a joint between two links -/
def exTag (name parent child : String) : JointTag F :=
  ⟨name, .revolute, ⟨⟨0, 0, 0⟩, ⟨0, 0, 0⟩⟩, parent, child, ⟨0, 0, 1⟩, 0, 1, none⟩

/-- one joint `j` from link `base` to link `tip` -/
def exPair : Robot F := ⟨[exTag "j" "base" "tip"], [exLink "base", exLink "tip"]⟩

example : (exPair (F := F)).joints.map (·.childLink) |>.Nodup := by simp [exPair]

/-- **C34** on a robot with one joint -/
example : linkToJointMap (exPair (F := F)) "tip" = some "j" ∧
    linkToJointMap (exPair (F := F)) "base" = some "root" ∧
    linkToJointMap (exPair (F := F)) "j" = none := by
  simp [C34_value, exPair, exTag, exLink, lastWith]

/-- **C35** (refuted: `"root"` is not mapped to the base link): the robot with one joint from `base`
to `tip` meets all hypotheses, `base` is the only link that is nobody's child, and `"root"` is mapped
to `tip`. -/
theorem C35_root_not_base :
    ((exPair (F := F)).joints.map (·.name)).Nodup ∧
    (∀ j ∈ (exPair (F := F)).joints, j.name ≠ "root") ∧
    (∀ l ∈ (exPair (F := F)).links, l.name ≠ "root") ∧
    (∀ l ∈ (exPair (F := F)).links, (∀ j ∈ (exPair (F := F)).joints, j.childLink ≠ l.name) →
      l.name = "base") ∧
    jointToLinkMap (exPair (F := F)) "root" = some "tip" := by
  have a : ((exPair (F := F)).joints.map (·.name)).Nodup := by simp [exPair]
  have b : ∀ j ∈ (exPair (F := F)).joints, j.name ≠ "root" := by simp [exPair, exTag]
  have c : ∀ l ∈ (exPair (F := F)).links, l.name ≠ "root" := by simp [exPair, exLink]
  refine ⟨a, b, c, ?_, ?_⟩
  · simp [exPair, exLink, exTag]
  · rw [(C35_joint_to_link _ a b c).2.1]
    simp [exPair, exLink, exTag, lastWith]

/-- **C35** (when the root part holds): if the base link is the only link whose name is not the name
of a joint, then `"root"` is mapped to it. -/
theorem C35_root_base (robot : Robot F) (distinct : (robot.joints.map (·.name)).Nodup)
    (noRoot : ∀ j ∈ robot.joints, j.name ≠ "root") (noRootLink : ∀ l ∈ robot.links, l.name ≠ "root")
    (base : LinkTag F) (hb : base ∈ robot.links)
    (only : ∀ l ∈ robot.links, (∀ j ∈ robot.joints, j.name ≠ l.name) ↔ l = base) :
    jointToLinkMap robot "root" = some base.name := by
  rw [(C35_joint_to_link robot distinct noRoot noRootLink).2.1]
  have key : ∀ ls : List (LinkTag F), (∀ l ∈ ls, l ∈ robot.links) → base ∈ ls →
      lastWith (fun l : LinkTag F => l.name ∉ robot.joints.map (·.name)) ls = some base := by
    intro ls
    induction ls using List.reverseRecOn with
    | nil => intro _ h; cases h
    | append_singleton ls l ih =>
      intro hs hm
      rw [lastWith_snoc]
      have hl := only l (hs l (by simp))
      by_cases hj : l.name ∈ robot.joints.map (·.name)
      · have nb : l ≠ base := by
          intro e
          obtain ⟨j, x, y⟩ := List.mem_map.1 hj
          exact hl.2 e j x y
        have hd : (decide (l.name ∉ robot.joints.map (·.name))) = false := by simpa using hj
        simp only [hd, Bool.false_eq_true, if_false]
        refine ih (fun x hx => hs x (by simp [hx])) ?_
        rcases List.mem_append.1 hm with h | h
        · exact h
        · exact absurd (List.mem_singleton.1 h).symm nb
      · have : l = base := hl.1 (fun j a b => hj (b ▸ List.mem_map_of_mem a))
        have hd : (decide (l.name ∉ robot.joints.map (·.name))) = true := by simpa using hj
        simp only [hd, if_true]
        rw [this]
  rw [key robot.links (fun _ h => h) hb]; rfl

end maps

end Urdf
end K
