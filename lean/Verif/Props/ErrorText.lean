import Verif.Model.Errors
import Verif.Props.ChainSet
import Verif.Model.RealScalar
import Std.Data.String.ToNat
import Mathlib.Data.List.Basic
/-!
# C78: the texts of errors
-/

namespace K
variable {T : Type}

/-- the kind of an error, without its fields -/
inductive ErrorKind where
  | outOfLimit | setToFixed | sizeMismatch | mimicError | notConverged | inverseMatrix | precondition
  | invalidJointName

/-- the kind of an error -/
def KError.kind : KError T → ErrorKind
  | .outOfLimit .. => .outOfLimit
  | .setToFixed .. => .setToFixed
  | .sizeMismatch .. => .sizeMismatch
  | .mimicError .. => .mimicError
  | .notConverged .. => .notConverged
  | .inverseMatrix => .inverseMatrix
  | .precondition .. => .precondition
  | .invalidJointName .. => .invalidJointName

/-- no two numbers print the same, and no text of a number has a space -/
structure Readable (num : T → String) : Prop where
  inj : ∀ x y, num x = num y → x = y
  noSpace : ∀ x, ' ' ∉ (num x).toList

theorem noSpace_repr (n : Nat) : ' ' ∉ n.repr.toList := by
  intro h
  rw [Nat.repr, String.toList_ofList] at h
  have := Nat.isDigit_of_mem_toDigits (by decide) (by decide) h
  revert this; decide

/-- the part before the first space -/
theorem split_first {a a' b b' : List Char} (ha : ' ' ∉ a) (ha' : ' ' ∉ a') (e : a ++ ' ' :: b = a' ++ ' ' :: b') :
    a = a' ∧ b = b' := by
  induction a generalizing a' with
  | nil =>
    cases a' with
    | nil => simpa using e
    | cons c a' => simp at e ha'; exact absurd e.1 ha'.1
  | cons c a ih =>
    cases a' with
    | nil => simp at e ha; exact absurd e.1.symm ha.1
    | cons c' a' =>
      simp only [List.cons_append, List.cons.injEq] at e
      obtain ⟨x, y⟩ := ih (by simp at ha; exact ha.2) (by simp at ha'; exact ha'.2) e.2
      exact ⟨by rw [e.1, x], y⟩

/-- the part after the last space -/
theorem split_last {a a' b b' : List Char} (hb : ' ' ∉ b) (hb' : ' ' ∉ b') (e : a ++ ' ' :: b = a' ++ ' ' :: b') :
    a = a' ∧ b = b' := by
  have := congrArg List.reverse e
  simp only [List.reverse_append, List.reverse_cons, List.append_assoc, List.singleton_append] at this
  obtain ⟨x, y⟩ := split_first (by simpa using hb) (by simpa using hb') this
  exact ⟨List.reverse_injective y, List.reverse_injective x⟩

private theorem split_lit {a a' l b b' : List Char} (hb : ' ' ∉ b) (hb' : ' ' ∉ b')
    (e : a ++ (l ++ [' ']) ++ b = a' ++ (l ++ [' ']) ++ b') : a = a' ∧ b = b' := by
  obtain ⟨x, y⟩ := split_last (a := a ++ l) (a' := a' ++ l) hb hb' (by simpa [List.append_assoc] using e)
  exact ⟨List.append_cancel_right x, y⟩

private theorem toList_inj {s t : String} (h : s.toList = t.toList) : s = t := String.toList_inj.1 h

private theorem lit0 : ("joint: " : String).toList =
    ['j', 'o', 'i', 'n', 't', ':', ' '] :=
  String.toList_ofList
private theorem lit1 : (" is out of limit: " : String).toList =
    [' ', 'i', 's', ' ', 'o', 'u', 't', ' ', 'o', 'f', ' ', 'l', 'i', 'm', 'i', 't', ':'] ++ [' '] :=
  String.toList_ofList
private theorem lit2 : (", limit = " : String).toList =
    [',', ' ', 'l', 'i', 'm', 'i', 't', ' ', '='] ++ [' '] :=
  String.toList_ofList
private theorem lit3 : (" <=> " : String).toList =
    [' ', '<', '=', '>'] ++ [' '] :=
  String.toList_ofList
private theorem lit4 : ("joint " : String).toList =
    ['j', 'o', 'i', 'n', 't', ' '] :=
  String.toList_ofList
private theorem lit5 : ("size mismatch input = " : String).toList =
    ['s', 'i', 'z', 'e', ' ', 'm', 'i', 's', 'm', 'a', 't', 'c', 'h', ' ', 'i', 'n', 'p', 'u', 't', ' ', '=', ' '] :=
  String.toList_ofList
private theorem lit6 : (", required = " : String).toList =
    [',', ' ', 'r', 'e', 'q', 'u', 'i', 'r', 'e', 'd', ' ', '=', ' '] :=
  String.toList_ofList
private theorem lit7 : ("mimic error from " : String).toList =
    ['m', 'i', 'm', 'i', 'c', ' ', 'e', 'r', 'r', 'o', 'r', ' ', 'f', 'r', 'o', 'm', ' '] :=
  String.toList_ofList
private theorem lit8 : (" to " : String).toList =
    [' ', 't', 'o', ' '] :=
  String.toList_ofList
private theorem lit9 : ("ik solve not converged tried " : String).toList =
    ['i', 'k', ' ', 's', 'o', 'l', 'v', 'e', ' ', 'n', 'o', 't', ' ', 'c', 'o', 'n', 'v', 'e', 'r', 'g', 'e', 'd', ' ', 't', 'r', 'i', 'e', 'd', ' '] :=
  String.toList_ofList
private theorem lit10 : (" times, position diff = " : String).toList =
    [' ', 't', 'i', 'm', 'e', 's', ',', ' ', 'p', 'o', 's', 'i', 't', 'i', 'o', 'n', ' ', 'd', 'i', 'f', 'f', ' ', '=', ' '] :=
  String.toList_ofList
private theorem lit11 : ("inverse matrix error" : String).toList =
    ['i', 'n', 'v', 'e', 'r', 's', 'e', ' ', 'm', 'a', 't', 'r', 'i', 'x', ' ', 'e', 'r', 'r', 'o', 'r'] :=
  String.toList_ofList
private theorem lit12 : ("ik precondition error: input Dof=" : String).toList =
    ['i', 'k', ' ', 'p', 'r', 'e', 'c', 'o', 'n', 'd', 'i', 't', 'i', 'o', 'n', ' ', 'e', 'r', 'r', 'o', 'r', ':', ' ', 'i', 'n', 'p', 'u', 't', ' ', 'D', 'o', 'f', '='] :=
  String.toList_ofList
private theorem lit13 : (", must be greater than " : String).toList =
    [',', ' ', 'm', 'u', 's', 't', ' ', 'b', 'e', ' ', 'g', 'r', 'e', 'a', 't', 'e', 'r', ' ', 't', 'h', 'a', 'n', ' '] :=
  String.toList_ofList
private theorem lit14 : ("There is no valid joint named " : String).toList =
    ['T', 'h', 'e', 'r', 'e', ' ', 'i', 's', ' ', 'n', 'o', ' ', 'v', 'a', 'l', 'i', 'd', ' ', 'j', 'o', 'i', 'n', 't', ' ', 'n', 'a', 'm', 'e', 'd', ' '] :=
  String.toList_ofList

variable {num : T → String} {vec : V3 T → String}

private theorem text1 (a : String) (x y z : T) : (KError.outOfLimit a x y z).text num vec = "joint: " ++ a ++
    " is out of limit: " ++ num x ++ ", limit = " ++ num y ++ " <=> " ++ num z := rfl
private theorem text2 (a : String) : (KError.setToFixed (T := T) a).text num vec =
    "joint " ++ a ++ " is fixed joint but the position is set" := rfl
private theorem text3 (a b : Nat) : (KError.sizeMismatch (T := T) a b).text num vec =
    "size mismatch input = " ++ a.repr ++ ", required = " ++ b.repr := rfl
private theorem text4 (a b : String) : (KError.mimicError (T := T) a b).text num vec =
    "mimic error from " ++ a ++ " to " ++ b := rfl
private theorem text5 (a : Nat) (p r : V3 T) : (KError.notConverged a p r).text num vec =
    "ik solve not converged tried " ++ a.repr ++ " times, position diff = " ++ vec p ++ ", rotation diff = " ++
      vec r := rfl
private theorem text6 : (KError.inverseMatrix (T := T)).text num vec = "inverse matrix error" := rfl
private theorem text7 (a b : Nat) : (KError.precondition (T := T) a b).text num vec =
    "ik precondition error: input Dof=" ++ a.repr ++ ", must be greater than " ++ b.repr := rfl
private theorem text8 (a : String) : (KError.invalidJointName (T := T) a).text num vec =
    "There is no valid joint named " ++ a := rfl

/-- the first six characters -/
private def pre : ErrorKind → List Char
  | .outOfLimit => ['j', 'o', 'i', 'n', 't', ':']
  | .setToFixed => ['j', 'o', 'i', 'n', 't', ' ']
  | .sizeMismatch => ['s', 'i', 'z', 'e', ' ', 'm']
  | .mimicError => ['m', 'i', 'm', 'i', 'c', ' ']
  | .notConverged => ['i', 'k', ' ', 's', 'o', 'l']
  | .inverseMatrix => ['i', 'n', 'v', 'e', 'r', 's']
  | .precondition => ['i', 'k', ' ', 'p', 'r', 'e']
  | .invalidJointName => ['T', 'h', 'e', 'r', 'e', ' ']

private theorem text_pre (e : KError T) : (e.text num vec).toList.take 6 = pre e.kind := by
  cases e <;> simp only [text1, text2, text3, text4, text5, text6, text7, text8, String.toList_append, lit0, lit4, lit5, lit7, lit9, lit11, lit12, lit14,
    List.append_assoc, List.cons_append, List.take_succ_cons, List.take_zero, KError.kind, pre]

/-- **C78** (kind).  Two errors with the same text are of the same kind. -/
theorem C78_kind (e e' : KError T) (h : e.text num vec = e'.text num vec) : e.kind = e'.kind := by
  have h' : pre e.kind = pre e'.kind := by rw [← text_pre (num := num) (vec := vec), h, text_pre]
  revert h'
  generalize e.kind = k, e'.kind = k'
  cases k <;> cases k' <;> intro h' <;> first
    | rfl
    | (exact absurd h' (by simp [pre]))

/-- **C78** (fields).  When the texts of numbers can be told apart, every field can be read off the text, except
the names of `MimicError` and the vectors of `NotConvergedError`. -/
theorem C78_fields (rd : Readable num) (e e' : KError T) (h : e.text num vec = e'.text num vec)
    (m : e.kind ≠ .mimicError) : e = e' ∨
      ∃ n p r p' r', e = .notConverged n p r ∧ e' = .notConverged n p' r' := by
  have k := C78_kind e e' h
  have h' := congrArg String.toList h
  cases e <;> cases e' <;> simp only [KError.kind, reduceCtorEq, ne_eq, not_true_eq_false, not_false_eq_true] at k m
  case outOfLimit.outOfLimit a x y z a' x' y' z' =>
    left
    simp only [text1, String.toList_append, lit1, lit2, lit3] at h'
    obtain ⟨h', ez⟩ := split_lit (rd.noSpace z) (rd.noSpace z') h'
    obtain ⟨h', ey⟩ := split_lit (rd.noSpace y) (rd.noSpace y') h'
    obtain ⟨h', ex⟩ := split_lit (rd.noSpace x) (rd.noSpace x') h'
    rw [List.append_cancel_left_eq] at h'
    rw [toList_inj h', rd.inj _ _ (toList_inj ex), rd.inj _ _ (toList_inj ey), rd.inj _ _ (toList_inj ez)]
  case setToFixed.setToFixed a a' =>
    left
    simp only [text2, String.toList_append] at h'
    rw [List.append_cancel_right_eq, List.append_cancel_left_eq] at h'
    rw [toList_inj h']
  case sizeMismatch.sizeMismatch a b a' b' =>
    left
    simp only [text3, String.toList_append, List.append_assoc] at h'
    rw [List.append_cancel_left_eq, lit6] at h'
    obtain ⟨x, y⟩ := split_first (a := a.repr.toList ++ [',']) (a' := a'.repr.toList ++ [','])
      (by simpa using noSpace_repr a) (by simpa using noSpace_repr a')
      (by simpa only [List.append_assoc, List.cons_append, List.nil_append] using h')
    rw [List.append_cancel_right_eq] at x
    simp only [List.cons.injEq, true_and] at y
    rw [Nat.repr_injective (toList_inj x), Nat.repr_injective (toList_inj y)]
  case notConverged.notConverged a p r a' p' r' =>
    right
    simp only [text5, String.toList_append, List.append_assoc] at h'
    rw [List.append_cancel_left_eq, lit10] at h'
    simp only [List.cons_append] at h'
    obtain ⟨x, -⟩ := split_first (noSpace_repr a) (noSpace_repr a') h'
    rw [Nat.repr_injective (toList_inj x)]
    exact ⟨_, _, _, _, _, rfl, rfl⟩
  case inverseMatrix.inverseMatrix => exact .inl rfl
  case precondition.precondition a b a' b' =>
    left
    simp only [text7, String.toList_append, List.append_assoc] at h'
    rw [List.append_cancel_left_eq, lit13] at h'
    obtain ⟨x, y⟩ := split_first (a := a.repr.toList ++ [',']) (a' := a'.repr.toList ++ [','])
      (by simpa using noSpace_repr a) (by simpa using noSpace_repr a')
      (by simpa only [List.append_assoc, List.cons_append, List.nil_append] using h')
    rw [List.append_cancel_right_eq] at x
    simp only [List.cons.injEq, true_and] at y
    rw [Nat.repr_injective (toList_inj x), Nat.repr_injective (toList_inj y)]
  case invalidJointName.invalidJointName a a' =>
    left
    simp only [text8, String.toList_append] at h'
    rw [List.append_cancel_left_eq] at h'
    rw [toList_inj h']

/-- **C78** (`MimicError`).  Its names cannot always be told apart. -/
theorem C78_mimic_ambiguous :
    (KError.mimicError (T := T) "a" "b to c").text num vec = (KError.mimicError (T := T) "a to b" "c").text num vec := by
  rw [text4, text4]
  apply toList_inj
  have h1 : ("b to c" : String).toList = ['b', ' ', 't', 'o', ' ', 'c'] := String.toList_ofList
  have h2 : ("a to b" : String).toList = ['a', ' ', 't', 'o', ' ', 'b'] := String.toList_ofList
  have h3 : ("a" : String).toList = ['a'] := String.toList_ofList
  have h4 : ("c" : String).toList = ['c'] := String.toList_ofList
  simp only [String.toList_append, lit8, h1, h2, h3, h4, List.append_assoc, List.cons_append, List.nil_append]

example : Readable Nat.repr := ⟨fun _ _ h => Nat.repr_injective h, noSpace_repr⟩

/-- **C78** (a rejected value).  What a user reads when `set_joint_position` rejects a value: the name, the value, the
*upper* limit, then the *lower* limit. -/
theorem C78_out_of_limit [Scalar T] (j : Joint T) (r : Range T) (x : T) (mv : j.jointType ≠ .fixed)
    (hr : j.limits = some r) (out : (Scalar.le r.min x && Scalar.le x r.max) = false) :
    ∃ e, (j.setJointPosition x).2 = .error e ∧ e.text num vec =
      "joint: " ++ j.name ++ " is out of limit: " ++ num x ++ ", limit = " ++ num r.max ++ " <=> " ++ num r.min := by
  have iv : r.isValid x = false := by rw [Range.isValid, Bool.and_comm, out]
  have im : j.isMovable = true := by
    unfold Joint.isMovable
    cases e : j.jointType
    · exact absurd e mv
    all_goals rfl
  refine ⟨.outOfLimit j.name x r.max r.min, ?_, rfl⟩
  simp [Joint.setJointPosition, im, hr, iv]

/-- a joint with limits `0` and `1`, set to `2` -/
example (num : ℝ → String) (vec : V3 ℝ → String) :
    ∃ e, (({ Joint.new "a" (.rotational ⟨1, 0, 0⟩) with limits := some ⟨0, 1⟩ } : Joint ℝ).setJointPosition 2).2 =
        .error e ∧ e.text num vec =
      "joint: " ++ "a" ++ " is out of limit: " ++ num 2 ++ ", limit = " ++ num 1 ++ " <=> " ++ num 0 := by
  obtain ⟨e, h, t⟩ := C78_out_of_limit (num := num) (vec := vec)
    ({ Joint.new "a" (.rotational ⟨1, 0, 0⟩) with limits := some ⟨0, 1⟩ } : Joint ℝ) ⟨0, 1⟩ 2 (by simp [Joint.new]) rfl
    (by norm_num [Scalar.le])
  exact ⟨e, h, t⟩

/-- **C78** (a fixed joint). -/
theorem C78_fixed [Scalar T] (j : Joint T) (x : T) (fx : j.jointType = .fixed) :
    ∃ e, (j.setJointPosition x).2 = .error e ∧
      e.text num vec = "joint " ++ j.name ++ " is fixed joint but the position is set" := by
  refine ⟨.setToFixed j.name, ?_, rfl⟩
  simp [Joint.setJointPosition, Joint.isMovable, fx]

/-- **C78** (a list of the wrong length): the given length, then the length needed. -/
theorem C78_size [Scalar T] (h : KHeap T) (c : Chain) (xs : List T) (ne : xs.length ≠ c.dof) :
    ∃ e, run (c.setJointPositions xs) h = .ok (.error e) h ∧
      e.text num vec = "size mismatch input = " ++ xs.length.repr ++ ", required = " ++ c.dof.repr :=
  ⟨_, C07_size_mismatch h c xs ne, rfl⟩

end K
