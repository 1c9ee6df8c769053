import Verif.Model.Serde
/-!
# C81: documents of `Constraints`
-/

namespace K

/-! ## specification -/

/-- the values given for a key, in order -/
def valuesAt (k : String) (kvs : List (String × Val)) : List Val := (kvs.filter (·.1 = k)).map (·.2)

/-- the document says `b` for the flag `k`: no entry and `b = true`, or exactly one, the boolean `b` -/
def FlagAt (k : String) (kvs : List (String × Val)) (b : Bool) : Prop :=
  (valuesAt k kvs = [] ∧ b = true) ∨ valuesAt k kvs = [.bool b]

/-- the document gives the list of names `ns` -/
def NamesAt (k : String) (kvs : List (String × Val)) (ns : List String) : Prop :=
  (valuesAt k kvs = [] ∧ ns = []) ∨ valuesAt k kvs = [.seq (ns.map .str)]

/-- the document describes `c` -/
def Describes (kvs : List (String × Val)) (c : Constraints) : Prop :=
  FlagAt "position_x" kvs c.positionX ∧ FlagAt "position_y" kvs c.positionY ∧
  FlagAt "position_z" kvs c.positionZ ∧ FlagAt "rotation_x" kvs c.rotationX ∧
  FlagAt "rotation_y" kvs c.rotationY ∧ FlagAt "rotation_z" kvs c.rotationZ ∧
  NamesAt "ignored_joint_names" kvs c.ignoredJointNames

/-! ## the loop -/

private def flagName : Fin 6 → String
  | 0 => "position_x" | 1 => "position_y" | 2 => "position_z"
  | 3 => "rotation_x" | 4 => "rotation_y" | 5 => "rotation_z"

private theorem all6 {P : Fin 6 → Prop} (h0 : P 0) (h1 : P 1) (h2 : P 2) (h3 : P 3) (h4 : P 4) (h5 : P 5) : ∀ i, P i
  | 0 => h0 | 1 => h1 | 2 => h2 | 3 => h3 | 4 => h4 | 5 => h5

private theorem ofStr_flag (i : Fin 6) : ConstraintField.ofStr (flagName i) = .flag i := by
  revert i; exact all6 rfl rfl rfl rfl rfl rfl

private theorem ofStr_names : ConstraintField.ofStr "ignored_joint_names" = .names := rfl

private theorem ofStr_cases (s : String) : (∃ i, s = flagName i) ∨ s = "ignored_joint_names" ∨
    (ConstraintField.ofStr s = .ignore ∧ (∀ i, s ≠ flagName i) ∧ s ≠ "ignored_joint_names") := by
  by_cases h0 : s = "position_x"; · exact .inl ⟨0, h0⟩
  by_cases h1 : s = "position_y"; · exact .inl ⟨1, h1⟩
  by_cases h2 : s = "position_z"; · exact .inl ⟨2, h2⟩
  by_cases h3 : s = "rotation_x"; · exact .inl ⟨3, h3⟩
  by_cases h4 : s = "rotation_y"; · exact .inl ⟨4, h4⟩
  by_cases h5 : s = "rotation_z"; · exact .inl ⟨5, h5⟩
  by_cases h6 : s = "ignored_joint_names"; · exact .inr (.inl h6)
  refine .inr (.inr ⟨by simp [ConstraintField.ofStr, *], all6 h0 h1 h2 h3 h4 h5, h6⟩)

private theorem flagName_inj {i j : Fin 6} (h : flagName i = flagName j) : i = j := by
  have := congrArg ConstraintField.ofStr h
  rw [ofStr_flag, ofStr_flag] at this
  injection this

private theorem flagName_ne (i : Fin 6) : flagName i ≠ "ignored_joint_names" := by
  revert i; exact all6 (by decide) (by decide) (by decide) (by decide) (by decide) (by decide)

private theorem valuesAt_cons (k : String) (kv : String × Val) (kvs : List (String × Val)) :
    valuesAt k (kv :: kvs) = if kv.1 = k then kv.2 :: valuesAt k kvs else valuesAt k kvs := by
  by_cases h : kv.1 = k <;> simp [valuesAt, h]

private theorem asStrings_ok (v : Val) (ns : List String) : v.asStrings = .ok ns ↔ v = .seq (ns.map .str) := by
  cases v with
  | seq vs =>
    simp only [Val.asStrings, Val.seq.injEq]
    induction vs generalizing ns with
    | nil => cases ns <;> simp [pure, Except.pure]
    | cons v vs ih =>
      simp only [List.mapM_cons]
      cases v <;> simp only [Val.asString]
      case str s =>
        cases hm : vs.mapM Val.asString with
        | error e =>
          refine ⟨fun h => (by cases h), fun h => ?_⟩
          cases ns with
          | nil => cases h
          | cons n ns =>
            simp only [List.map_cons, List.cons.injEq] at h
            rw [(ih ns).2 h.2] at hm; cases hm
        | ok l =>
          have := (ih l).1 hm
          subst this
          cases ns with
          | nil => exact ⟨fun h => (by cases h), fun h => (by cases h)⟩
          | cons n ns =>
            have inj : List.map Val.str l = List.map Val.str ns ↔ l = ns :=
              ⟨fun h => (List.map_inj_right fun a b h => by injection h).1 h, fun h => h ▸ rfl⟩
            show (Except.ok (s :: l) : Except SerdeError _) = .ok (n :: ns) ↔ _
            simp [inj]
      all_goals exact ⟨fun h => (by cases h), fun h => by cases ns <;> simp at h⟩
  | _ => simp [Val.asStrings]

/-- what the loop does to one of the variables of `visit_map` -/
private def After {α : Type} (as : Val → Except SerdeError α) (a b : Option α) (vs : List Val) : Prop :=
  (vs = [] ∧ b = a) ∨ (a = none ∧ ∃ v x, vs = [v] ∧ as v = .ok x ∧ b = some x)

private theorem entries_ok (kvs : List (String × Val)) (p q : PartialConstraints) :
    p.entries kvs = .ok q ↔ (∀ i, After Val.asBool (p.flags i) (q.flags i) (valuesAt (flagName i) kvs)) ∧
      After Val.asStrings p.names q.names (valuesAt "ignored_joint_names" kvs) := by
  induction kvs generalizing p with
  | nil =>
    obtain ⟨f, n⟩ := p
    obtain ⟨f', n'⟩ := q
    simp only [PartialConstraints.entries, After, valuesAt, List.filter_nil, List.map_nil, true_and,
      Except.ok.injEq, PartialConstraints.mk.injEq]
    constructor
    · rintro ⟨rfl, rfl⟩; exact ⟨fun _ => .inl rfl, .inl rfl⟩
    · rintro ⟨h, h'⟩
      refine ⟨funext fun i => ?_, ?_⟩
      · rcases h i with h | ⟨-, v, x, h, -⟩
        · exact h.symm
        · cases h
      · rcases h' with h | ⟨-, v, x, h, -⟩
        · exact h.symm
        · cases h
  | cons kv kvs ih =>
    obtain ⟨k, v⟩ := kv
    simp only [PartialConstraints.entries, valuesAt_cons]
    rcases ofStr_cases k with ⟨i, rfl⟩ | rfl | ⟨hi, hf, hn⟩
    · simp only [PartialConstraints.entry, ofStr_flag, (flagName_ne i), if_false]
      have ne : ∀ j, j ≠ i → flagName i ≠ flagName j := fun j h e => h (flagName_inj e).symm
      cases hp : p.flags i with
      | some b0 =>
        refine ⟨fun h => (by cases h), fun h => ?_⟩
        have := h.1 i
        rw [if_pos rfl, hp] at this
        rcases this with ⟨h, -⟩ | ⟨h, -⟩ <;> cases h
      | none =>
        cases hv : v.asBool with
        | error e =>
          refine ⟨fun h => (by cases h), fun h => ?_⟩
          have := h.1 i
          rw [if_pos rfl] at this
          rcases this with ⟨h, -⟩ | ⟨-, w, x, h, h', -⟩
          · cases h
          · injection h with h _; rw [← h, hv] at h'; cases h'
        | ok b =>
          show PartialConstraints.entries ⟨fun j => if j = i then some b else p.flags j, p.names⟩ kvs = .ok q ↔ _
          rw [ih]
          refine and_congr_left fun _ => forall_congr' fun j => ?_
          by_cases hj : j = i
          · subst hj
            simp only [if_true, hp, After]
            constructor
            · rintro (⟨h, h'⟩ | ⟨h, -⟩)
              · exact .inr ⟨by trivial, v, b, by rw [h], hv, h'⟩
              · cases h
            · rintro (⟨h, -⟩ | ⟨-, w, x, h, h', h''⟩)
              · cases h
              · simp only [List.cons.injEq] at h
                rw [h.1] at hv
                rw [hv] at h'
                cases h'
                exact .inl ⟨h.2, h''⟩
          · simp only [if_neg hj, if_neg (ne j hj)]
    · simp only [PartialConstraints.entry, ofStr_names, if_true, (flagName_ne _).symm, if_false]
      cases hp : p.names with
      | some b0 =>
        refine ⟨fun h => (by cases h), fun h => ?_⟩
        rcases h.2 with ⟨h, -⟩ | ⟨h, -⟩ <;> cases h
      | none =>
        cases hv : v.asStrings with
        | error e =>
          refine ⟨fun h => (by cases h), fun h => ?_⟩
          rcases h.2 with ⟨h, -⟩ | ⟨-, w, x, h, h', -⟩
          · cases h
          · injection h with h _; rw [← h, hv] at h'; cases h'
        | ok b =>
          show PartialConstraints.entries ⟨p.flags, some b⟩ kvs = .ok q ↔ _
          rw [ih]
          refine and_congr_right fun _ => ?_
          simp only [After]
          constructor
          · rintro (⟨h, h'⟩ | ⟨h, -⟩)
            · exact .inr ⟨by trivial, v, b, by rw [h], hv, h'⟩
            · cases h
          · rintro (⟨h, -⟩ | ⟨-, w, x, h, h', h''⟩)
            · cases h
            · simp only [List.cons.injEq] at h
              rw [h.1] at hv
              rw [hv] at h'
              cases h'
              exact .inl ⟨h.2, h''⟩
    · simp only [PartialConstraints.entry, hi, hf, hn, if_false]
      exact ih p

private theorem after_flag (o : Option Bool) (b : Bool) (vs : List Val) (h : o.getD true = b) :
    After Val.asBool none o vs → (vs = [] ∧ b = true) ∨ vs = [.bool b] := by
  rintro (⟨e, rfl⟩ | ⟨-, v, x, e, hv, rfl⟩)
  · exact .inl ⟨e, h.symm⟩
  · cases v <;> cases hv
    exact .inr (by rw [e]; simpa using h)

private theorem flag_after (b : Bool) (vs : List Val) (h : (vs = [] ∧ b = true) ∨ vs = [.bool b]) :
    ∃ o, After Val.asBool none o vs ∧ o.getD true = b := by
  rcases h with ⟨e, rfl⟩ | e
  · exact ⟨none, .inl ⟨e, rfl⟩, rfl⟩
  · exact ⟨some b, .inr ⟨rfl, _, b, e, rfl, rfl⟩, rfl⟩

/-! ## theorems -/

/-- **C81** (maps).  Deserializing a map succeeds with `c` exactly when the map describes `c`: each flag is given at
most once, as a boolean, and is true when it is not given; the names are given at most once, as a list of strings,
and are empty when not given.  The order of the entries and entries with other keys do not matter. -/
theorem C81_map (kvs : List (String × Val)) (c : Constraints) :
    Constraints.deserialize (.map kvs) = .ok c ↔ Describes kvs c := by
  have d : ∀ r, Constraints.deserialize (.map kvs) = .ok r ↔
      ∃ p, PartialConstraints.entries ⟨fun _ => none, none⟩ kvs = .ok p ∧ p.finish = r := by
    intro r
    simp only [Constraints.deserialize]
    cases PartialConstraints.entries ⟨fun _ => none, none⟩ kvs with
    | error e => exact ⟨fun h => (by cases h), fun ⟨p, h, _⟩ => (by cases h)⟩
    | ok p =>
      show Except.ok p.finish = Except.ok r ↔ _
      simp
  simp only [d, entries_ok]
  constructor
  · rintro ⟨p, ⟨hf, hn⟩, rfl⟩
    refine ⟨after_flag _ _ _ rfl (hf 0), after_flag _ _ _ rfl (hf 1), after_flag _ _ _ rfl (hf 2),
      after_flag _ _ _ rfl (hf 3), after_flag _ _ _ rfl (hf 4), after_flag _ _ _ rfl (hf 5), ?_⟩
    rcases hn with ⟨e, h⟩ | ⟨-, v, x, e, hv, h⟩
    · exact .inl ⟨e, by simp only [PartialConstraints.finish, h]; rfl⟩
    · refine .inr ?_
      rw [e, (asStrings_ok v x).1 hv]
      simp only [PartialConstraints.finish, h]; rfl
  · rintro ⟨h0, h1, h2, h3, h4, h5, h6⟩
    obtain ⟨o0, a0, e0⟩ := flag_after _ _ h0
    obtain ⟨o1, a1, e1⟩ := flag_after _ _ h1
    obtain ⟨o2, a2, e2⟩ := flag_after _ _ h2
    obtain ⟨o3, a3, e3⟩ := flag_after _ _ h3
    obtain ⟨o4, a4, e4⟩ := flag_after _ _ h4
    obtain ⟨o5, a5, e5⟩ := flag_after _ _ h5
    have : ∃ o, After Val.asStrings none o (valuesAt "ignored_joint_names" kvs) ∧
        o.getD [] = c.ignoredJointNames := by
      rcases h6 with ⟨e, h⟩ | e
      · exact ⟨none, .inl ⟨e, rfl⟩, h.symm⟩
      · exact ⟨some c.ignoredJointNames, .inr ⟨rfl, _, _, e, (asStrings_ok _ _).2 rfl, rfl⟩, rfl⟩
    obtain ⟨o6, a6, e6⟩ := this
    refine ⟨⟨fun | 0 => o0 | 1 => o1 | 2 => o2 | 3 => o3 | 4 => o4 | 5 => o5, o6⟩,
      ⟨all6 a0 a1 a2 a3 a4 a5, a6⟩, ?_⟩
    · show Constraints.mk (o0.getD true) (o1.getD true) (o2.getD true) (o3.getD true) (o4.getD true)
        (o5.getD true) (o6.getD []) = c
      rw [e0, e1, e2, e3, e4, e5, e6]

/-- **C81** (order).  Entries in another order give the same constraints, or are refused too. -/
theorem C81_order (kvs kvs' : List (String × Val)) (p : kvs.Perm kvs') (c : Constraints)
    (h : Constraints.deserialize (.map kvs) = .ok c) : Constraints.deserialize (.map kvs') = .ok c := by
  have v : ∀ k, (valuesAt k kvs).Perm (valuesAt k kvs') := fun k => (p.filter _).map _
  have f : ∀ k b, FlagAt k kvs b → FlagAt k kvs' b := by
    rintro k b (⟨e, h⟩ | e)
    · exact .inl ⟨List.Perm.nil_eq (e ▸ v k) |>.symm, h⟩
    · exact .inr (List.perm_singleton.1 (e ▸ (v k).symm))
  obtain ⟨h0, h1, h2, h3, h4, h5, h6⟩ := (C81_map kvs c).1 h
  have : Describes kvs' c := by
    refine ⟨f _ _ h0, f _ _ h1, f _ _ h2, f _ _ h3, f _ _ h4, f _ _ h5, ?_⟩
    rcases h6 with ⟨e, h⟩ | e
    · exact .inl ⟨List.Perm.nil_eq (e ▸ v _) |>.symm, h⟩
    · exact .inr (List.perm_singleton.1 (e ▸ (v _).symm))
  exact (C81_map kvs' c).2 this

/-- the keys that mean something -/
def knownKeys : List String :=
  ["position_x", "position_y", "position_z", "rotation_x", "rotation_y", "rotation_z", "ignored_joint_names"]

/-- **C81** (unknown keys).  Entries with any other key (a misspelt flag, say) have no effect: the document without
them is read in the same way. -/
theorem C81_unknown (kvs : List (String × Val)) (c : Constraints) :
    Constraints.deserialize (.map kvs) = .ok c ↔
      Constraints.deserialize (.map (kvs.filter fun kv => decide (kv.1 ∈ knownKeys))) = .ok c := by
  have v : ∀ k ∈ knownKeys, valuesAt k (kvs.filter fun kv => decide (kv.1 ∈ knownKeys)) = valuesAt k kvs := by
    intro k hk
    unfold valuesAt
    rw [List.filter_filter]
    congr 1
    refine List.filter_congr fun kv _ => ?_
    by_cases e : kv.1 = k
    · subst e; simp [hk]
    · simp [e]
  rw [C81_map, C81_map]
  simp only [Describes, FlagAt, NamesAt]
  rw [v _ (by decide), v _ (by decide), v _ (by decide), v _ (by decide), v _ (by decide), v _ (by decide),
    v _ (by decide)]

/-- **C81** (round trip).  What is serialized, as a map or as a sequence, is read back unchanged. -/
theorem C81_round_trip (c : Constraints) :
    Constraints.deserialize c.serialize = .ok c ∧ Constraints.deserialize c.serializeSeq = .ok c := by
  constructor
  · exact (C81_map _ c).2 (show Describes
      [("position_x", .bool c.positionX), ("position_y", .bool c.positionY), ("position_z", .bool c.positionZ),
        ("rotation_x", .bool c.rotationX), ("rotation_y", .bool c.rotationY), ("rotation_z", .bool c.rotationZ),
        ("ignored_joint_names", .seq (c.ignoredJointNames.map .str))] c from
      ⟨.inr rfl, .inr rfl, .inr rfl, .inr rfl, .inr rfl, .inr rfl, .inr rfl⟩)
  · have := (asStrings_ok (.seq (c.ignoredJointNames.map .str)) _).2 rfl
    simp only [Constraints.deserialize, Constraints.serializeSeq, seqNext, Val.asBool, this, bind, Except.bind,
      pure, Except.pure, List.isEmpty, if_true]

/-- **C81** (no entries).  A document that names no field - the empty one, or one with misspelt keys only - gives the
default constraints, so solving with it is `solve`. -/
theorem C81_default {T : Type} [Scalar T] (kvs : List (String × Val)) (h : ∀ kv ∈ kvs, kv.1 ∉ knownKeys) :
    Constraints.deserialize (.map kvs) = .ok Constraints.default ∧
    Constraints.deserialize (.seq []) = .ok Constraints.default ∧
    ∀ c, Constraints.deserialize (.map kvs) = .ok c → ∀ (s : IkSolver T) (arm : Chain) (target : Iso T),
      solveWithConstraints s arm target c = solve s arm target := by
  have e : Constraints.deserialize (.map kvs) = .ok Constraints.default := by
    rw [C81_unknown]
    have : (kvs.filter fun kv => decide (kv.1 ∈ knownKeys)) = [] :=
      List.filter_eq_nil_iff.2 fun kv hkv => by simpa using h kv hkv
    rw [this]; rfl
  refine ⟨e, rfl, fun c hc s arm t => ?_⟩
  rw [e] at hc; cases hc; rfl

/-- **C81** (refusals).  A flag given twice, or with something else than a boolean, is refused; so are names given
twice and a document that is neither a map nor a sequence. -/
theorem C81_refused (kvs : List (String × Val)) :
    (∀ k ∈ knownKeys, 2 ≤ (valuesAt k kvs).length → ∃ e, Constraints.deserialize (.map kvs) = .error e) ∧
    (∀ k ∈ knownKeys, k ≠ "ignored_joint_names" → ∀ v ∈ valuesAt k kvs, (∀ b, v ≠ .bool b) →
      ∃ e, Constraints.deserialize (.map kvs) = .error e) ∧
    (∀ v : Val, (∀ m, v ≠ .map m) → (∀ l, v ≠ .seq l) → Constraints.deserialize v = .error .invalidType) := by
  have key : (¬ ∃ c, Describes kvs c) → ∃ e, Constraints.deserialize (.map kvs) = .error e := by
    intro n
    cases e : Constraints.deserialize (.map kvs) with
    | error x => exact ⟨x, rfl⟩
    | ok c => exact (n ⟨c, (C81_map kvs c).1 e⟩).elim
  have fl : ∀ k b, FlagAt k kvs b → (valuesAt k kvs).length ≤ 1 ∧ ∀ v ∈ valuesAt k kvs, ∃ b, v = .bool b := by
    rintro k b (⟨e, -⟩ | e) <;> rw [e] <;> simp
  have nm : ∀ k b, NamesAt k kvs b → (valuesAt k kvs).length ≤ 1 := by
    rintro k b (⟨e, -⟩ | e) <;> rw [e] <;> simp
  refine ⟨fun k hk len => key ?_, fun k hk ne v hv nb => key ?_, fun v nm ns => ?_⟩
  · rintro ⟨c, h0, h1, h2, h3, h4, h5, h6⟩
    have : (valuesAt k kvs).length ≤ 1 := by
      simp only [knownKeys, List.mem_cons, List.not_mem_nil, or_false] at hk
      rcases hk with rfl | rfl | rfl | rfl | rfl | rfl | rfl
      · exact (fl _ _ h0).1
      · exact (fl _ _ h1).1
      · exact (fl _ _ h2).1
      · exact (fl _ _ h3).1
      · exact (fl _ _ h4).1
      · exact (fl _ _ h5).1
      · exact nm _ _ h6
    omega
  · rintro ⟨c, h0, h1, h2, h3, h4, h5, h6⟩
    have : ∃ b, v = .bool b := by
      simp only [knownKeys, List.mem_cons, List.not_mem_nil, or_false] at hk
      rcases hk with rfl | rfl | rfl | rfl | rfl | rfl | rfl
      · exact (fl _ _ h0).2 v hv
      · exact (fl _ _ h1).2 v hv
      · exact (fl _ _ h2).2 v hv
      · exact (fl _ _ h3).2 v hv
      · exact (fl _ _ h4).2 v hv
      · exact (fl _ _ h5).2 v hv
      · exact (ne rfl).elim
    exact this.elim nb
  · cases v with
    | map m => exact (nm m rfl).elim
    | seq l => exact (ns l rfl).elim
    | _ => rfl

private theorem bind_ok {α β : Type} (x : Except SerdeError α) (f : α → Except SerdeError β) (b : β) :
    (x >>= f) = .ok b ↔ ∃ a, x = .ok a ∧ f a = .ok b := by
  cases x with
  | error e => exact ⟨fun h => (by cases h), fun ⟨a, h, _⟩ => (by cases h)⟩
  | ok a => exact ⟨fun h => ⟨a, rfl, h⟩, fun ⟨a', h, h'⟩ => by cases h; exact h'⟩

private theorem seqNext_ok {α : Type} (as : Val → Except SerdeError α) (d : α) (vs : List Val) (r : α × List Val) :
    seqNext as d vs = .ok r ↔ ((vs.length ≤ 0 ∧ r.1 = d) ∨ ∃ v, vs[0]? = some v ∧ as v = .ok r.1) ∧
      r.2 = vs.drop 1 := by
  obtain ⟨a, rest⟩ := r
  cases vs with
  | nil => simp [seqNext, eq_comm]
  | cons v vs =>
    simp only [seqNext, bind_ok]
    simp only [pure, Except.pure, Except.ok.injEq, Prod.mk.injEq, List.length_cons,
      List.getElem?_cons_zero, Option.some.injEq, List.drop_succ_cons, List.drop_zero]
    constructor
    · rintro ⟨x, h, rfl, rfl⟩; exact ⟨.inr ⟨v, rfl, h⟩, rfl⟩
    · rintro ⟨⟨h, -⟩ | ⟨w, rfl, h⟩, rfl⟩; · omega
      exact ⟨a, h, rfl, rfl⟩

private theorem asBool_ok (v : Val) (b : Bool) : v.asBool = .ok b ↔ v = .bool b := by
  cases v <;> simp [Val.asBool]

/-- element `i` of a sequence says `b` for a flag: it is missing and `b = true`, or it is the boolean `b` -/
def FlagNth (i : Nat) (vs : List Val) (b : Bool) : Prop := (vs.length ≤ i ∧ b = true) ∨ vs[i]? = some (.bool b)

/-- **C81** (sequences).  A sequence is read by position, in the order position x, y, z, rotation x, y, z, names; what
is missing at the end is true (empty for the names), and more than seven elements are refused. -/
theorem C81_seq (vs : List Val) (c : Constraints) :
    Constraints.deserialize (.seq vs) = .ok c ↔
      FlagNth 0 vs c.positionX ∧ FlagNth 1 vs c.positionY ∧ FlagNth 2 vs c.positionZ ∧
      FlagNth 3 vs c.rotationX ∧ FlagNth 4 vs c.rotationY ∧ FlagNth 5 vs c.rotationZ ∧
      ((vs.length ≤ 6 ∧ c.ignoredJointNames = []) ∨ vs[6]? = some (.seq (c.ignoredJointNames.map .str))) ∧
      vs.length ≤ 7 := by
  obtain ⟨c0, c1, c2, c3, c4, c5, c6⟩ := c
  simp only [Constraints.deserialize, bind_ok, seqNext_ok, Prod.exists, asBool_ok, asStrings_ok, defaultTrue]
  constructor
  · rintro ⟨a0, r0, ⟨h0, rfl⟩, a1, r1, ⟨h1, rfl⟩, a2, r2, ⟨h2, rfl⟩, a3, r3, ⟨h3, rfl⟩, a4, r4, ⟨h4, rfl⟩,
      a5, r5, ⟨h5, rfl⟩, a6, r6, ⟨h6, rfl⟩, e⟩
    simp only [List.drop_drop, List.length_drop, List.getElem?_drop, Nat.reduceAdd] at *
    split at e
    · rename_i emp
      simp only [List.isEmpty_iff, List.drop_eq_nil_iff] at emp
      cases e
      have fl : ∀ (k : Nat) (a : Bool), ((vs.length - k ≤ 0 ∧ a = true) ∨ ∃ v, vs[k]? = some v ∧ v = .bool a) →
          FlagNth k vs a := by
        rintro k a (⟨h, h'⟩ | ⟨v, h, rfl⟩)
        · exact .inl ⟨by omega, h'⟩
        · exact .inr h
      refine ⟨fl 0 _ (by simpa using h0), fl 1 _ h1, fl 2 _ h2, fl 3 _ h3, fl 4 _ h4, fl 5 _ h5, ?_, emp⟩
      rcases h6 with ⟨h, h'⟩ | ⟨v, h, rfl⟩
      · exact .inl ⟨by omega, h'⟩
      · exact .inr h
    · cases e
  · rintro ⟨h0, h1, h2, h3, h4, h5, h6, len⟩
    have fl : ∀ (k : Nat) (a : Bool), FlagNth k vs a →
        ((vs.drop k).length ≤ 0 ∧ a = true) ∨ ∃ v, (vs.drop k)[0]? = some v ∧ v = .bool a := by
      rintro k a (⟨h, h'⟩ | h)
      · exact .inl ⟨by simp only [List.length_drop]; omega, h'⟩
      · exact .inr ⟨_, by simpa using h, rfl⟩
    refine ⟨c0, _, ⟨fl 0 _ h0, rfl⟩, c1, _, ⟨fl 1 _ h1, rfl⟩, c2, _, ⟨?_, rfl⟩, c3, _, ⟨?_, rfl⟩, c4, _, ⟨?_, rfl⟩,
      c5, _, ⟨?_, rfl⟩, c6, _, ⟨?_, rfl⟩, ?_⟩
    all_goals simp only [List.drop_drop, Nat.reduceAdd]
    · exact fl 2 _ h2
    · exact fl 3 _ h3
    · exact fl 4 _ h4
    · exact fl 5 _ h5
    · rcases h6 with ⟨h, h'⟩ | h
      · exact .inl ⟨by simp only [List.length_drop]; omega, h'⟩
      · exact .inr ⟨_, by simpa using h, rfl⟩
    · rw [if_pos (by simpa using len)]; rfl

/-! ## instances -/

/-- rotations free, one joint ignored twice, a misspelt key and a comment: the misspelt flag stays true -/
example : Constraints.deserialize (.map [("ignored_joint_names", .seq [.str "a", .str "a"]), ("rotation_z", .bool false),
    ("comment", .num 3), ("rotation_x", .bool false), ("rotationy", .bool false)]) =
    .ok ⟨true, true, true, false, true, false, ["a", "a"]⟩ :=
  (C81_map _ _).2 ⟨.inl ⟨rfl, rfl⟩, .inl ⟨rfl, rfl⟩, .inl ⟨rfl, rfl⟩, .inr rfl, .inl ⟨rfl, rfl⟩, .inr rfl, .inr rfl⟩

/-- a flag given twice is refused even if both say the same -/
example : ∃ e, Constraints.deserialize (.map [("position_x", .bool true), ("position_x", .bool true)]) = .error e :=
  (C81_refused _).1 "position_x" (by simp [knownKeys]) (by simp [valuesAt])

/-- three elements: the positions; the rotations stay constrained -/
example : Constraints.deserialize (.seq [.bool false, .bool true, .bool false]) =
    .ok ⟨false, true, false, true, true, true, []⟩ :=
  (C81_seq _ _).2 ⟨.inr rfl, .inr rfl, .inr rfl, .inl ⟨by decide, rfl⟩, .inl ⟨by decide, rfl⟩, .inl ⟨by decide, rfl⟩,
    .inl ⟨by decide, rfl⟩, by decide⟩

end K
