import Verif.Props.Display
import Verif.Lemmas.RealGeom
/-!
# C61: the text of a node
-/

namespace K

/-- the six signed coordinate axes and their names -/
def namedAxes : List (V3 ℝ × String) :=
  [(⟨1, 0, 0⟩, "+X"), (⟨0, 1, 0⟩, "+Y"), (⟨0, 0, 1⟩, "+Z"),
   (⟨-1, 0, 0⟩, "-X"), (⟨0, -1, 0⟩, "-Y"), (⟨0, 0, -1⟩, "-Z")]

/-- `s` is the name of the axis `a` -/
def AxisName (a : V3 ℝ) (s : String) : Prop := (a, s) ∈ namedAxes

/-- what is printed for an axis: its name if it has one, else nothing -/
def AxisText (a : V3 ℝ) (s : String) : Prop := AxisName a s ∨ ((∀ n, ¬ AxisName a n) ∧ s = "")

/-- what is printed for a joint type -/
inductive TypeText : JointType ℝ → String → Prop
  | fixed : TypeText .fixed "[⚓]"
  | rotational {a : V3 ℝ} {s : String} (t : AxisText a s) : TypeText (.rotational a) ("[⚙" ++ s ++ "]")
  | linear {a : V3 ℝ} {s : String} (t : AxisText a s) : TypeText (.linear a) ("[↕" ++ s ++ "]")

private theorem beq_iff (a b : V3 ℝ) : a.beq b = true ↔ a = b := by
  cases a; cases b
  simp [V3.beq, Scalar.eq, and_assoc]

private theorem axisText (a : V3 ℝ) : AxisText a (axisToString a) := by
  unfold axisToString AxisText
  by_cases h1 : a.beq ⟨1, 0, 0⟩ = true
  · rw [if_pos h1, (beq_iff _ _).1 h1]; left; simp [AxisName, namedAxes, V3.neg]
  rw [if_neg h1]; rw [beq_iff] at h1
  by_cases h2 : a.beq ⟨0, 1, 0⟩ = true
  · rw [if_pos h2, (beq_iff _ _).1 h2]; left; simp [AxisName, namedAxes, V3.neg]
  rw [if_neg h2]; rw [beq_iff] at h2
  by_cases h3 : a.beq ⟨0, 0, 1⟩ = true
  · rw [if_pos h3, (beq_iff _ _).1 h3]; left; simp [AxisName, namedAxes, V3.neg]
  rw [if_neg h3]; rw [beq_iff] at h3
  by_cases h4 : a.beq (V3.neg ⟨1, 0, 0⟩) = true
  · rw [if_pos h4, (beq_iff _ _).1 h4]; left; simp [AxisName, namedAxes, V3.neg]
  rw [if_neg h4]; rw [beq_iff] at h4
  by_cases h5 : a.beq (V3.neg ⟨0, 1, 0⟩) = true
  · rw [if_pos h5, (beq_iff _ _).1 h5]; left; simp [AxisName, namedAxes, V3.neg]
  rw [if_neg h5]; rw [beq_iff] at h5
  by_cases h6 : a.beq (V3.neg ⟨0, 0, 1⟩) = true
  · rw [if_pos h6, (beq_iff _ _).1 h6]; left; simp [AxisName, namedAxes, V3.neg]
  rw [if_neg h6]; rw [beq_iff] at h6
  refine .inr ⟨fun n x => ?_, rfl⟩
  simp only [AxisName, namedAxes, List.mem_cons, Prod.mk.injEq, List.not_mem_nil, or_false] at x
  simp only [V3.neg, neg_zero] at h4 h5 h6
  rcases x with ⟨x, -⟩ | ⟨x, -⟩ | ⟨x, -⟩ | ⟨x, -⟩ | ⟨x, -⟩ | ⟨x, -⟩ <;> contradiction

/-- **C61** The text of a node: the name of its joint, a space, the type in brackets - an anchor for a
fixed, a gear for a rotational, a double arrow for a linear joint - with the name of the axis when it is
one of the six signed coordinate axes, and the name of the link if there is one. -/
theorem C61_text (s : NodeImpl ℝ) : ∃ t, TypeText s.joint.jointType t ∧
    s.display = s.joint.name ++ " " ++ t ++
      (match s.link with | none => "" | some l => " => /" ++ l.name ++ "/") := by
  refine ⟨s.joint.jointType.display, ?_, ?_⟩
  · cases s.joint.jointType with
    | fixed => exact .fixed
    | rotational a => exact .rotational (axisText a)
    | linear a => exact .linear (axisText a)
  · unfold NodeImpl.display Joint.display
    cases s.link <;> rfl

private theorem AxisName.inj {a b : V3 ℝ} {s : String} (x : AxisName a s) (y : AxisName b s) : a = b := by
  simp only [AxisName, namedAxes, List.mem_cons, Prod.mk.injEq, List.not_mem_nil, or_false] at x y
  rcases x with ⟨rfl, rfl⟩ | ⟨rfl, rfl⟩ | ⟨rfl, rfl⟩ | ⟨rfl, rfl⟩ | ⟨rfl, rfl⟩ | ⟨rfl, rfl⟩ <;>
    (have := y; simp at this; exact this.symm)

private theorem AxisName.ne_empty {a : V3 ℝ} {s : String} (x : AxisName a s) : s ≠ "" := by
  simp only [AxisName, namedAxes, List.mem_cons, Prod.mk.injEq, List.not_mem_nil, or_false] at x
  rcases x with ⟨-, rfl⟩ | ⟨-, rfl⟩ | ⟨-, rfl⟩ | ⟨-, rfl⟩ | ⟨-, rfl⟩ | ⟨-, rfl⟩ <;> decide

private theorem AxisText.same {a b : V3 ℝ} {s : String} (x : AxisText a s) (y : AxisText b s) :
    a = b ∨ (∀ n, ¬ AxisName a n) ∧ (∀ n, ¬ AxisName b n) := by
  rcases x with x | ⟨x, rfl⟩
  · rcases y with y | ⟨y, rfl⟩
    · exact .inl (x.inj y)
    · exact absurd rfl x.ne_empty
  · rcases y with y | ⟨y, -⟩
    · exact absurd rfl y.ne_empty
    · exact .inr ⟨x, y⟩

private theorem bracket_inj {p a b : String} (e : p ++ a ++ "]" = p ++ b ++ "]") : a = b := by
  have := congrArg String.toList e
  simp only [String.toList_append, List.append_assoc] at this
  have := List.append_cancel_right (List.append_cancel_left this)
  exact String.toList_inj.1 this

/-- **C61** (the type can be read off) Two joint types are printed alike only if they are of the same kind
with the same axis, or with axes that both have no name. -/
theorem C61_readable (s t : JointType ℝ) (e : s.display = t.display) :
    s = t ∨ ∃ a b : V3 ℝ, (∀ n, ¬ AxisName a n) ∧ (∀ n, ¬ AxisName b n) ∧
      (s = .rotational a ∧ t = .rotational b ∨ s = .linear a ∧ t = .linear b) := by
  have sym : ∀ (x y : Char) (a b : List Char), x ≠ y →
      '[' :: x :: a ≠ '[' :: y :: b := by intro x y a b n h; simp at h; exact n h.1
  cases s with
  | fixed =>
    cases t with
    | fixed => exact .inl rfl
    | rotational b =>
      exact absurd (by simpa [JointType.display] using congrArg String.toList e)
        (sym '⚓' '⚙' [']'] ((axisToString b).toList ++ [']']) (by decide))
    | linear b =>
      exact absurd (by simpa [JointType.display] using congrArg String.toList e)
        (sym '⚓' '↕' [']'] ((axisToString b).toList ++ [']']) (by decide))
  | rotational a =>
    cases t with
    | fixed =>
      exact absurd (by simpa [JointType.display] using congrArg String.toList e)
        (sym '⚙' '⚓' ((axisToString a).toList ++ [']']) [']'] (by decide))
    | rotational b =>
      have q := bracket_inj (p := "[⚙") e
      rcases (axisText a).same (q ▸ axisText b) with rfl | ⟨x, y⟩
      · exact .inl rfl
      · exact .inr ⟨a, b, x, y, .inl ⟨rfl, rfl⟩⟩
    | linear b =>
      exact absurd (by simpa [JointType.display] using congrArg String.toList e)
        (sym '⚙' '↕' ((axisToString a).toList ++ [']']) ((axisToString b).toList ++ [']']) (by decide))
  | linear a =>
    cases t with
    | fixed =>
      exact absurd (by simpa [JointType.display] using congrArg String.toList e)
        (sym '↕' '⚓' ((axisToString a).toList ++ [']']) [']'] (by decide))
    | rotational b =>
      exact absurd (by simpa [JointType.display] using congrArg String.toList e)
        (sym '↕' '⚙' ((axisToString a).toList ++ [']']) ((axisToString b).toList ++ [']']) (by decide))
    | linear b =>
      have q := bracket_inj (p := "[↕") e
      rcases (axisText a).same (q ▸ axisText b) with rfl | ⟨x, y⟩
      · exact .inl rfl
      · exact .inr ⟨a, b, x, y, .inr ⟨rfl, rfl⟩⟩

/-- an elbow turning about minus y, with a link -/
example (i : Inertial ℝ) : ({ NodeImpl.fresh (Joint.new "elbow" (.rotational ⟨0, -1, 0⟩)) with
      link := some ⟨"arm", i, [], []⟩ } : NodeImpl ℝ).display = "elbow [⚙-Y] => /arm/" := by
  obtain ⟨t, ht, e⟩ := C61_text ({ NodeImpl.fresh (Joint.new "elbow" (.rotational ⟨0, -1, 0⟩)) with
      link := some ⟨"arm", i, [], []⟩ } : NodeImpl ℝ)
  have my : AxisName ⟨0, -1, 0⟩ "-Y" := by simp [AxisName, namedAxes]
  have : t = "[⚙-Y]" := by
    cases ht with
    | rotational h =>
      rcases h with h | ⟨h, -⟩
      · have n1 : (-1 : ℝ) ≠ 0 := by norm_num
        have n2 : (-1 : ℝ) ≠ 1 := by norm_num
        simp [AxisName, namedAxes, n1, n2] at h
        rw [h]; decide
      · exact absurd my (h _)
  rw [e, this]; rfl

end K
