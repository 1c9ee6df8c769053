import Verif.Lemmas.Answer
import Verif.Spec.Answers
import Verif.Props.Static
/-!
# C69: what each call can answer, whatever the other threads do
-/

set_option linter.unusedSectionVars false

namespace K
open Prog
variable {T : Type} [Scalar T] {α β : Type}

/-- what no call changes -/
private abbrev Known (h : KHeap T) (n : NodeId) (s : NodeImpl T) : Prop :=
  n < h.next → (h.get n).joint.sameData s.joint

variable {h : KHeap T} {L : List NodeId}

private theorem refuses {j : Joint T} {x : T} {e : KError T} (err : (j.setJointPosition x).2 = .error e) :
    Refuses j x e := by
  rcases (C01_err j x e err).2 with a | ⟨a, r, b, c, d⟩
  · exact .inl a
  · exact .inr ⟨a, r, b, d, c⟩

private theorem gives_joint (n : NodeId) :
    Gives h.next (Known h) L (JointOf h n) (Node.joint n : KProg T _) :=
  gives_peek.bind fun _ hs => gives_pure hs

private theorem gives_set (n : NodeId) (x : T) :
    Gives h.next (Known h) [] (fun r => ∀ e, r = .error e → SetErr h n x e) (Node.setJointPosition n x) := by
  refine ans_lock fun _ => ans_read fun s hs => ?_
  split
  · exact ans_unlock ⟨rfl, fun e he => by cases he⟩
  · refine ans_write ?_
    cases er : (s.joint.setJointPosition x).2 with
    | error e =>
      exact ans_unlock ⟨rfl, fun e' he => by cases he; exact .inl ⟨_, hs, refuses er⟩⟩
    | ok u =>
      refine Gives.ans (gives_tryEach (Q := fun c e => ∃ (j : Joint T) (m : Mimic T), JointOf h c j ∧
        Refuses j (x * m.multiplier + m.origin) e) fun c _ => ?_) fun r hr => ans_unlock ⟨rfl, fun e he => ?_⟩
      · refine ans_lock fun _ => ans_read fun sc hsc => ?_
        cases em : sc.mimic with
        | some m =>
          refine ans_write (ans_unlock ⟨rfl, fun e he => ⟨_, m, hsc, refuses he⟩⟩)
        | none =>
          refine Gives.ans (Q := fun _ => False) ?_ fun _ f => f.elim
          exact fun hn => absurd (by simp : n ∈ [c, n]) hn
      · obtain ⟨c, _, j, m, q⟩ := hr e he
        exact .inr ⟨c, j, m, q⟩

private theorem gives_setAll (c : Chain) (xs : List T) :
    Gives h.next (Known h) [] (Answer h (.setJointPositions c xs)) (c.setJointPositions xs) := by
  unfold Chain.setJointPositions
  split
  · rename_i ne
    exact ⟨rfl, fun _ => rfl, fun e => absurd e ne⟩
  · rename_i eq
    refine (gives_tryEach (Q := fun nx e => SetErr h nx.1 nx.2 e) fun nx _ => gives_set _ _).mono fun r hr => ?_
    exact ⟨fun ne => absurd ne eq, fun _ => hr⟩

private theorem gives_positions (c : Chain) :
    Gives h.next (Known h) [] (fun xs => xs.length = c.movableNodes.length) (c.jointPositions : KProg T _) := by
  refine (gives_mapList (Q := fun _ _ => True) fun n _ => ?_).mono fun xs hx => hx.length_eq.symm
  exact ans_lock fun _ => ans_read fun s _ => gives_expect.ans fun _ _ => ans_unlock ⟨rfl, trivial⟩

private theorem gives_own {γ : Type} {p : KProg T γ} (o : Own (fun L' _ => L' = [] ∧ True) p []) :
    Gives h.next (Known h) [] (fun _ => True) p := Keep.gives o

private theorem isMovable_of {j j' : Joint T} (e : j.sameData j') : j'.isMovable = j.isMovable := by
  unfold Joint.isMovable; rw [e.2.1]

private theorem filter_zip {ns : List NodeId} {bs : List Bool} {f : NodeId → Bool}
    (q : List.Forall₂ (fun n b => n < h.next → b = f n) ns bs) (l : ∀ n ∈ ns, n < h.next) :
    ((ns.zip bs).filter Prod.snd).map Prod.fst = ns.filter f := by
  induction q with
  | nil => rfl
  | @cons n b ns bs hb _ ih =>
    have ih := ih fun m hm => l m (by simp [hm])
    have e := hb (l n (by simp))
    cases b with
    | true => simp [← e, ih]
    | false => simp [← e, ih]

private theorem gives_fromNodes (ns : List NodeId) :
    Gives h.next (Known h) [] (fun c => c.nodes = ns ∧ ChainOf h c) (Chain.fromNodes ns : KProg T _) := by
  refine Gives.bind (gives_filterList (Q := fun n b => n < h.next → b = (h.get n).joint.isMovable)
    fun n _ => (gives_joint n).bind fun j hj => gives_pure fun l => isMovable_of (hj l)) ?_
  rintro mv ⟨bs, q, rfl⟩
  exact gives_pure ⟨rfl, rfl, fun l => filter_zip q l⟩

private theorem gives_ancestors (fuel : Nat) (n : NodeId) :
    Gives h.next (Known h) [] (fun l => ∃ rest, l = n :: rest) (ancestors fuel (some n) : KProg T _) := by
  cases fuel with
  | zero => trivial
  | succ k =>
    refine Gives.bind (gives_own (own_call (.parent n))) fun p _ => ?_
    exact Gives.bind (gives_own (keep_ancestors (fun _ => trivial) k p)) fun l _ => gives_pure ⟨l, rfl⟩

private theorem gives_descendants (fuel : Nat) (n : NodeId) :
    Gives h.next (Known h) [] (fun l => ∃ rest, l = n :: rest) (descendants fuel [n] : KProg T _) := by
  cases fuel with
  | zero => trivial
  | succ k =>
    refine Gives.bind (gives_own (own_call (.children n))) fun p _ => ?_
    exact Gives.bind (gives_own (keep_descendants (fun _ => trivial) k _)) fun l _ => gives_pure ⟨l, rfl⟩

private theorem gives_until (stop : NodeId) (fuel : Nat) (o : Option NodeId) :
    Gives h.next (Known h) [] (fun l => (∀ n, o = some n → ∃ rest, l = n :: rest) ∧ stop ∉ l.dropLast)
      (ancestorsUntil stop fuel o : KProg T _) := by
  induction fuel generalizing o with
  | zero =>
    cases o with
    | none => exact ⟨rfl, fun n e => (by cases e), by simp⟩
    | some n => trivial
  | succ k ih =>
    cases o with
    | none => exact ⟨rfl, fun n e => (by cases e), by simp⟩
    | some n =>
      refine Gives.bind (gives_own (own_call (.parent n))) fun p _ => ?_
      split
      · exact gives_pure ⟨fun m e => ⟨[], by cases e; rfl⟩, by simp⟩
      · rename_i ne
        refine (ih p).bind fun l hl => gives_pure ⟨fun m e => ⟨l, by cases e; rfl⟩, fun hm => ?_⟩
        cases l with
        | nil => simp at hm
        | cons y ys =>
          rw [List.dropLast_cons_of_ne_nil (by simp)] at hm
          rcases List.mem_cons.1 hm with e | hm
          · exact ne e.symm
          · exact hl.2 hm

private theorem gives_index (name : String) (ns : List NodeId) :
    Gives h.next (Known h) [] (fun o =>
      (o = none → ∀ n ∈ ns, n < h.next → (h.get n).joint.name ≠ name) ∧
      (∀ i, o = some i → (∀ n ∈ ns, n < h.next) → ∃ n ∈ ns, (h.get n).joint.name = name))
      (jointIndex name ns : KProg T _) := by
  induction ns with
  | nil => exact ⟨rfl, fun _ => by simp, fun i e => by cases e⟩
  | cons n ns ih =>
    refine (gives_joint n).bind fun j hj => ?_
    split
    · rename_i eq
      refine gives_pure ⟨fun e => (by cases e), fun i _ l => ⟨n, by simp, ?_⟩⟩
      rw [← (hj (l n (by simp))).1]; exact by simpa using eq
    · rename_i ne
      refine ih.bind fun o ho => gives_pure ⟨fun e m hm l => ?_, fun i e l => ?_⟩
      · rcases List.mem_cons.1 hm with rfl | hm
        · rw [← (hj l).1]; simpa using ne
        · exact ho.1 (by simpa using e) m hm l
      · obtain ⟨i', rfl, _⟩ := Option.map_eq_some_iff.1 e
        obtain ⟨m, hm, e⟩ := ho.2 i' rfl fun m hm => l m (by simp [hm])
        exact ⟨m, by simp [hm], e⟩

private theorem gives_ignored (c : Chain) (names : List String) :
    Gives h.next (Known h) [] (fun r =>
      (∀ e, r = .error e → ∃ name ∈ names, Unnamed h c name ∧ e = .invalidJointName name) ∧
      (∀ is, r = .ok is → is.length = names.length ∧ ∀ name ∈ names, Named h c name))
      (ignoredIndices c names : KProg T _) := by
  induction names with
  | nil => exact ⟨rfl, fun e he => (by cases he), fun is he => ⟨by cases he; rfl, by simp⟩⟩
  | cons name names ih =>
    refine (gives_index name _).bind fun o ho => ?_
    cases o with
    | none => exact gives_pure ⟨fun e he => ⟨name, by simp, ho.1 rfl, by cases he; rfl⟩, fun is he => by cases he⟩
    | some i =>
      refine ih.bind fun r hr => ?_
      cases r with
      | error e =>
        refine gives_pure ⟨fun e' he => ?_, fun is he => by cases he⟩
        cases he
        obtain ⟨nm, hm, q⟩ := hr.1 e rfl
        exact ⟨nm, by simp [hm], q⟩
      | ok is =>
        refine gives_pure ⟨fun e he => (by cases he), fun is' he => ?_⟩
        cases he
        obtain ⟨a, b⟩ := hr.2 is rfl
        refine ⟨by simp [a], fun nm hm => ?_⟩
        rcases List.mem_cons.1 hm with rfl | hm
        · exact ho.2 i rfl
        · exact b nm hm

/-- the only error of a step is a singular matrix -/
theorem nextPositions_err {s : IkSolver T} {ops : List Bool} {ig : List Nat} {dof : Nat} {jac : Mat T}
    {err orig : List T} {e : KError T} (h : nextPositions s ops ig dof jac err orig = .ok (.error e)) :
    e = .inverseMatrix ∧ dof - ig.length ≤ countTrue ops := by
  unfold nextPositions at h
  simp only [Bind.bind, Except.bind] at h
  split at h
  · cases h
  · split at h
    · cases h
    · split at h
      · split at h
        · cases h
        · split at h
          · split at h
            · cases h
            · split at h
              · cases h
              · split at h
                · cases h
                · split at h <;> cases h
          · split at h <;> cases h
      · rename_i le
        split at h
        · cases h
        · cases h; exact ⟨rfl, Nat.le_of_not_lt le⟩

private theorem gives_loop (s : IkSolver T) (c : Chain) (t : Iso T) (ops : List Bool) (ig : List Nat) :
    Gives h.next (Known h) [] (fun r => ∀ e, r = .error e → e = .inverseMatrix ∧
      c.dof - ig.length ≤ countTrue ops) (solveOneLoop s c t ops ig) := by
  refine Gives.bind (gives_positions c) fun orig _ => ?_
  refine Gives.bind (gives_own (own_call (.endTransform c))) fun tn _ => ?_
  refine Gives.bind (gives_own (own_call (.jacobian c))) fun jac _ => ?_
  refine Gives.bind gives_ofExcept fun r hr => ?_
  cases r with
  | error e => exact gives_pure fun e' he => by cases he; exact nextPositions_err hr
  | ok ps =>
    refine Gives.bind (gives_own (own_call (.setJointPositionsClamped c ps))) fun _ _ => ?_
    exact Gives.bind (gives_own (own_call (.endTransform c))) fun tn _ => gives_pure fun e he => by cases he

private theorem restore {s : IkSolver T} {c : Chain} {cs : Constraints} {orig : List T} {e : KError T}
    (len : orig.length = c.movableNodes.length)
    (r : Answer h (.setJointPositions c orig) (.error e)) : SolveErr h s c cs e := by
  by_cases eq : orig.length = c.dof
  · obtain ⟨nx, hm, he⟩ := r.2 eq e rfl
    exact .restore nx.1 (List.of_mem_zip hm).1 nx.2 e he
  · have := r.1 eq
    cases this
    rw [len] at eq ⊢
    exact .size eq

private theorem gives_tries (s : IkSolver T) (c : Chain) (t : Iso T) (cs : Constraints) (ig : List Nat)
    (orig : List T) (len : orig.length = c.movableNodes.length) (igl : ig.length = cs.ignoredJointNames.length)
    (enough : cs.count ≤ c.dof - cs.ignoredJointNames.length)
    (named : ∀ name ∈ cs.ignoredJointNames, Named h c name) (k : Nat) (o : Option (V3 T × V3 T))
    (hk : k ≤ s.numMaxTry)
    (ho : ∀ d, o = some d → 0 < s.numMaxTry ∧ reached s d.1 d.2 = false) :
    Gives h.next (Known h) [] (fun r => (∀ e, r = .error e → SolveErr h s c cs e) ∧
      (r = .ok () → 0 < s.numMaxTry)) (tryLoop s c t (defineOperationalSpace cs) ig orig k o) := by
  induction k generalizing o with
  | zero =>
    unfold tryLoop
    refine (gives_setAll c orig).bind fun r hr => ?_
    cases r with
    | error e => exact gives_pure ⟨fun e' he => by cases he; exact restore len hr, fun he => by cases he⟩
    | ok u =>
      refine gives_expect.bind fun d hd => gives_pure ⟨fun e he => ?_, fun he => by cases he⟩
      cases he
      obtain ⟨a, b⟩ := ho d hd
      refine .notConverged _ _ a (fun m => ?_) enough named
      simp [reached, m.1, m.2] at b
  | succ k ih =>
    unfold tryLoop
    refine (gives_loop s c t _ ig).bind fun r hr => ?_
    cases r with
    | error e =>
      refine gives_pure ⟨fun e' he => ?_, fun he => by cases he⟩
      cases he
      obtain ⟨rfl, le⟩ := hr e rfl
      rw [igl] at le
      exact .inverse (Nat.lt_of_lt_of_le (Nat.succ_pos _) hk) (Nat.le_antisymm le enough) named
    | ok d =>
      dsimp only
      split
      · refine Gives.bind (gives_positions c) fun ps _ => ?_
        refine Gives.bind (gives_own (own_call (.setJointPositionsClamped c ps))) fun _ _ => ?_
        exact gives_pure ⟨fun e he => (by cases he), fun _ => Nat.lt_of_lt_of_le (Nat.succ_pos _) hk⟩
      · rename_i nr
        refine ih _ (Nat.le_of_succ_le hk) fun d' hd => ?_
        cases hd
        exact ⟨Nat.lt_of_lt_of_le (Nat.succ_pos _) hk, by simpa using nr⟩

private theorem gives_solve (s : IkSolver T) (c : Chain) (t : Iso T) (cs : Constraints) :
    Gives h.next (Known h) [] (Answer h (.solve s c t cs)) (solveWithConstraints s c t cs) := by
  unfold solveWithConstraints
  refine (gives_positions c).bind fun orig len => ?_
  refine Gives.bind (Q := Answer h (.solve s c t cs)) ?_ fun r hr => ?_
  · unfold solveInternal
    refine (gives_positions c).bind fun orig' len' => ?_
    split
    · trivial
    · rename_i le
      have le : cs.ignoredJointNames.length ≤ c.dof := Nat.le_of_not_lt le
      dsimp only
      split
      · rename_i few
        exact gives_pure ⟨le, fun e he => by cases he; exact .precondition few, fun he => by cases he⟩
      · rename_i enough
        have enough : cs.count ≤ c.dof - cs.ignoredJointNames.length := Nat.le_of_not_lt enough
        refine (gives_ignored c _).bind fun r hr => ?_
        cases r with
        | error e =>
          refine gives_pure ⟨le, fun e' he => ?_, fun he => by cases he⟩
          cases he
          obtain ⟨nm, hm, un, rfl⟩ := hr.1 e rfl
          exact .invalidName nm hm un enough
        | ok ig =>
          obtain ⟨l, named⟩ := hr.2 ig rfl
          refine (gives_tries s c t cs _ orig' len' (by rw [List.length_mergeSort, l]) enough named _ _
            (Nat.le_refl _) fun d hd => by cases hd).mono fun r hr => ?_
          exact ⟨le, hr.1, fun he => ⟨hr.2 he, enough, named⟩⟩
  · cases r with
    | ok u => exact gives_pure hr
    | error e =>
      refine (gives_setAll c orig).bind fun r hr' => ?_
      cases r with
      | error e' => exact gives_pure ⟨hr.1, fun e'' he => by cases he; exact restore len hr', fun he => by cases he⟩
      | ok u => exact gives_pure hr

private theorem gives_cloneNode (n : NodeId) :
    Gives h.next (Known h) [] (fun m => h.next ≤ m) (Chain.cloneNode n : KProg T _) := by
  refine ans_lock fun _ => ans_read fun s _ => ?_
  intro m hm
  refine ans_unlock (ans_lock fun _ => ans_read fun s _ => ?_)
  exact gives_poke.ans fun _ _ => ans_unlock ⟨rfl, hm⟩

private theorem gives_cloneConnect (nodes news : List NodeId) (nn : NodeId × NodeId) :
    Gives h.next (Known h) [] (fun _ => True) (Chain.cloneConnect nodes news nn : KProg T _) := by
  unfold Chain.cloneConnect
  refine Gives.bind (gives_own (own_call (.parent nn.1))) fun o _ => ?_
  have second : Gives h.next (Known h) [] (fun _ => True) (do
      match ← Node.mimicParent nn.1 with
      | some m =>
        let i ← expect (position m nodes) "called `Option::unwrap()` on a `None` value"
        let m' ← expect news[i]? "index out of bounds"
        doLock nn.1
        let s ← doRead nn.1
        let mimic ← expect s.mimic "called `Option::unwrap()` on a `None` value"
        Node.setMimicParent nn.2 m' mimic
        doUnlock nn.1
      | none => pure () : KProg T Unit) := by
    refine Gives.bind (gives_own (own_call (.mimicParent nn.1))) fun o _ => ?_
    cases o with
    | none => exact gives_pure trivial
    | some m =>
      refine gives_expect.bind fun i _ => gives_expect.bind fun m' _ => ?_
      refine ans_lock fun _ => ans_read fun s _ => gives_expect.ans fun mi _ => ?_
      refine Gives.ans (Q := fun _ => True) ?_ fun _ _ => ⟨by simp, by rw [List.erase_cons_head]; exact ⟨rfl, trivial⟩⟩
      exact Keep.gives (keep_Node_setMimicParent (A := fun _ _ => True) (pk := fun _ => True)
        (U := fun _ _ => True) trivial trivial trivial trivial trivial)
  cases o with
  | none => exact second
  | some p =>
    refine gives_expect.bind fun i _ => gives_expect.bind fun p' _ => ?_
    exact Gives.bind (gives_own (own_call (.setParent nn.2 p'))) fun _ _ => second

private theorem gives_call (c : Call T β) : Gives h.next (Known h) [] (Answer h c) c.prog := by
  have rest : (∀ r, Answer h c r) → Gives h.next (Known h) [] (Answer h c) c.prog := fun a =>
    (gives_own (own_call c)).mono fun r _ => a r
  cases c
  case newNode j => exact fun m hm => ⟨rfl, hm⟩
  case setJointPosition n x => exact gives_set n x
  case joint n => exact gives_joint n
  case jointPosition n =>
    refine gives_peek.bind fun s hs => gives_pure fun l => ?_
    rw [← (hs l).2.1]
    unfold Joint.jointPosition
    cases s.joint.jointType <;> simp
  case iterAncestors fuel n => exact gives_ancestors fuel n
  case iterDescendants fuel n => exact gives_descendants fuel n
  case fromNodes ns => exact gives_fromNodes ns
  case fromRoot fuel n =>
    refine Gives.bind (gives_descendants fuel n) fun l hl => (gives_fromNodes l).mono fun c hc => ?_
    exact ⟨by rw [hc.1]; exact hl, hc.2⟩
  case fromEnd fuel n =>
    refine Gives.bind (gives_ancestors fuel n) fun l hl => (gives_fromNodes _).mono fun c hc => ?_
    obtain ⟨rest, rfl⟩ := hl
    exact ⟨⟨rest.reverse, by rw [hc.1]; simp⟩, hc.2⟩
  case fromEndToRoot fuel e r =>
    refine Gives.bind (gives_until r fuel (some e)) fun l hl => (gives_fromNodes _).mono fun c hc => ?_
    obtain ⟨rest, rfl⟩ := hl.1 e rfl
    refine ⟨⟨rest.reverse, by rw [hc.1]; simp⟩, fun hm => hl.2 ?_, hc.2⟩
    rw [hc.1, List.tail_reverse] at hm
    simpa using hm
  case iterJoints c => exact gives_mapList fun n _ => gives_joint n
  case iterLinks c =>
    refine Gives.bind (gives_mapList (Q := fun _ _ => True) fun n _ => ?_) fun ls hl => gives_pure ?_
    · refine Gives.bind (gives_own (own_call (.link n))) fun o _ => ?_
      split
      · exact ans_lock fun _ => ans_read fun s _ => gives_expect.ans fun _ _ => ans_unlock ⟨rfl, trivial⟩
      · exact gives_pure trivial
    · show _ ≤ c.nodes.length
      rw [hl.length_eq]; exact List.length_filterMap_le _ _
  case find c name =>
    refine (gives_findFirst (Q := fun n b => n < h.next → b = ((h.get n).joint.name == name)) fun n _ =>
      (gives_joint n).bind fun j hj => gives_pure fun l => by rw [(hj l).1]).mono fun o ho => ?_
    rcases ho with ⟨rfl, a⟩ | ⟨pre, x, post, e, rfl, qx, a⟩
    · refine ⟨fun m hm => (by cases hm), fun l => ?_⟩
      symm; rw [List.find?_eq_none]
      intro n hn; rw [← a n hn (l n hn)]; simp
    · refine ⟨fun m hm => by cases hm; simp [e], fun l => ?_⟩
      symm; rw [e, List.find?_append, List.find?_eq_none.2]
      · rw [List.find?_cons_of_pos]
        · rfl
        · exact (qx (l x (by simp [e]))).symm
      · intro n hn; rw [← a n hn (l n (by simp [e, hn]))]; simp
  case jointPositions c => exact gives_positions c
  case setJointPositions c xs => exact gives_setAll c xs
  case updateTransforms c =>
    refine (gives_mapList (Q := fun _ _ => True) fun n _ => ?_).mono fun xs hx => hx.length_eq.symm
    refine Gives.bind (gives_own (keep_Node_parentWorldTransform (fun _ => trivial) n)) fun _ _ => ?_
    refine gives_expect.bind fun t _ => (gives_joint n).bind fun j _ => ?_
    exact gives_poke.bind fun _ _ => gives_pure trivial
  case updateVelocities c =>
    refine Gives.bind (gives_own (own_call (.updateTransforms c))) fun _ _ => ?_
    refine (gives_mapList (Q := fun _ _ => True) fun n _ => ?_).mono fun xs hx => hx.length_eq.symm
    exact gives_own (own_updateVelocity n)
  case cloneChain fuel c =>
    show Gives _ _ _ _ (c.clone fuel)
    unfold Chain.clone
    split
    · rename_i e
      exact ⟨rfl, ⟨rfl, fun _ => rfl⟩, fun _ => rfl, fun ne => absurd e ne⟩
    · rename_i n0 _ e
      refine Gives.bind (gives_own (own_call (.isRoot n0))) fun b _ => ?_
      split
      · trivial
      · refine Gives.bind (gives_mapList (Q := fun _ m => h.next ≤ m) fun n _ => gives_cloneNode n) fun ns hns => ?_
        refine Gives.bind (gives_forEach fun nn _ => gives_cloneConnect _ _ nn) fun _ _ => ?_
        refine gives_expect.bind fun r hr => ?_
        refine Gives.bind (gives_own (own_call (.isRoot r))) fun b _ => ?_
        split
        · trivial
        · refine Gives.bind (gives_descendants fuel r) fun l hl => (gives_fromNodes l).mono fun c' hc => ?_
          obtain ⟨rest, rfl⟩ := hl
          refine ⟨hc.2, fun e' => ?_, fun _ => ⟨r, rest, hc.1, ?_⟩⟩
          · rw [e'] at e; cases e
          · rw [e] at hns
            cases hns with
            | cons a _ => cases hr; exact a
  case tryNew c =>
    show Gives _ _ _ _ c.tryNew
    unfold Chain.tryNew
    split
    · trivial
    · refine Gives.bind (gives_findFirst (Q := fun _ _ => True) fun n _ =>
        Gives.bind (gives_own (own_call (.children n))) fun _ _ => gives_pure trivial) fun o _ => gives_pure ?_
      intro c' e
      cases o <;> simp at e
      exact e.symm
  case jacobian c =>
    refine Gives.bind (gives_own (own_call (.endTransform c))) fun tn _ => ?_
    refine Gives.bind (gives_own (own_call (.updateTransforms c))) fun _ _ => ?_
    refine (gives_mapList (Q := fun _ col => col.length = 6) fun n _ => ?_).mono fun m hm =>
      ⟨hm.length_eq.symm, fun col hc => ?_⟩
    · refine ans_lock fun _ => ans_read fun s _ => gives_expect.ans fun ti _ => ?_
      refine gives_ofExcept.ans fun col hc => ans_unlock ⟨rfl, ?_⟩
      unfold jacobianColumn at hc
      split at hc <;> cases hc <;> rfl
    · generalize c.movableNodes = ns at hm
      induction hm with
      | nil => cases hc
      | cons a _ ih =>
        rcases List.mem_cons.1 hc with rfl | hc
        · exact a
        · exact ih hc
  case solve s c t cs => exact gives_solve s c t cs
  all_goals exact rest fun _ => trivial

private theorem ans_client {Q : α → Prop} (cl : Client T α) (y : cl.Yields (Answer h) Q) :
    Gives h.next (Known h) [] Q cl.prog := by
  induction cl with
  | done a => exact ⟨rfl, y⟩
  | call c k ih => exact (gives_call c).bind fun r hr => ih r (y r hr)

private theorem yields_true (cl : Client T α) (φ : ∀ {β : Type}, Call T β → β → Prop) :
    cl.Yields φ fun _ => True := by
  induction cl with
  | done a => trivial
  | call c k ih => exact fun r _ => ih r

/-- **C69**.  Whatever follows from the contracts `Answer` of the calls about the value a client returns,
holds when the client runs among any other clients, in any interleaving: other threads cannot make a call
break its contract. -/
theorem C69_contracts (h : KHeap T) (u : h.Unlocked) (ts : List (Client T α)) (d : Config (NodeImpl T) α)
    (st : DSteps ⟨h, ts.map Client.prog⟩ d) (i : Nat) (cl : Client T α) (hi : ts[i]? = some cl)
    (Q : α → Prop) (y : cl.Yields (Answer h) Q) (a : α) (r : d.threads[i]? = some (.ret a)) : Q a := by
  have inv : ∀ e, DSteps ⟨h, ts.map Client.prog⟩ e → HeapInv h.next (Known h) e.heap := fun e se =>
    (steps_safe (Q := fun _ => True) se (fun p hp => by
      obtain ⟨cl, _, rfl⟩ := List.mem_map.1 hp
      exact frozen_client h cl) ⟨Nat.le_refl _, fun n _ => ⟨rfl, rfl, rfl, rfl⟩⟩).2
  have sp : ∀ j p, (ts.map Client.prog)[j]? = some p →
      Ans h.next (Known h) (fun _ a => j = i → Q a) p [] := by
    intro j p hp
    rw [List.getElem?_map] at hp
    obtain ⟨cl', hj, rfl⟩ := Option.map_eq_some_iff.1 hp
    by_cases e : j = i
    · subst e
      rw [hi] at hj; cases hj
      exact Ans.mono (ans_client cl y) fun _ _ q _ => q.2
    · exact Ans.mono (ans_client cl' (yields_true cl' _)) fun _ _ _ e' => absurd e' e
  obtain ⟨_, q⟩ := steps_ans (Q := fun j _ a => j = i → Q a) st inv sp r
  exact q rfl

private theorem yields_andThen {γ : Type} {φ : ∀ {β : Type}, Call T β → β → Prop} {Q : α → Prop}
    (p : Client T γ) (f : γ → Client T α) (hf : ∀ g, (f g).Yields φ Q) : (p.andThen f).Yields φ Q := by
  induction p with
  | done a => exact hf a
  | call c k ih => exact fun r _ => ih r

/-- **C69**, one call: after anything at all (`pre` chooses the call), the answer is within the contract. -/
theorem C69_answer (h : KHeap T) (u : h.Unlocked) (ts : List (Client T (Call T β × β)))
    (d : Config (NodeImpl T) (Call T β × β))
    (st : DSteps ⟨h, ts.map Client.prog⟩ d) (i : Nat) (pre : Client T (Call T β))
    (hi : ts[i]? = some (pre.andThen fun c => .call c fun r => .done (c, r)))
    (c : Call T β) (r : β) (e : d.threads[i]? = some (.ret (c, r))) : Answer h c r :=
  C69_contracts h u ts d st i _ hi (fun cr => Answer h cr.1 cr.2)
    (yields_andThen _ _ fun _ _ hr => hr) _ e

/-- **C69** for a single thread: the result of a call that returns is within the contract. -/
theorem C69_sequential (h h' : KHeap T) (u : h.Unlocked) (c : Call T β) (r : β)
    (e : run c.prog h = .ok r h') : Answer h c r := by
  have st : Steps ⟨h, [Client.prog (.call c .done)]⟩ ⟨h', [.ret r]⟩ := by
    exact steps_run (f := fun r => (.ret r : KProg T β)) e (ts := [c.prog >>= .ret]) (i := 0) rfl
  exact C69_contracts h u [.call c .done] _ st.drops 0 _ rfl (Answer h c) (fun _ hr => hr) r rfl

private theorem not_mimicError {f : Fallible T} {a b : String}
    (r : Answer h f.call (.error (.mimicError a b))) : False := by
  have set : ∀ {n x}, ¬ SetErr h n x (.mimicError a b) := by
    rintro n x (⟨j, -, ⟨-, e⟩ | ⟨-, r, -, -, e⟩⟩ | ⟨c, j, m, -, ⟨-, e⟩ | ⟨-, r, -, -, e⟩⟩) <;> cases e
  cases f with
  | set n x => exact set (r _ rfl)
  | setAll c xs =>
    by_cases len : xs.length = c.dof
    · obtain ⟨nx, -, e⟩ := r.2 len _ rfl; exact set e
    · have := r.1 len; cases this
  | solve s c t cs =>
    have := r.2.1 _ rfl
    cases this with
    | restore n hn x e he => exact set he

/-- **C69**: `MimicError` is never returned, by any call of any thread in any interleaving. -/
theorem C69_no_mimic_error (h : KHeap T) (u : h.Unlocked)
    (ts : List (Client T (Fallible T × Except (KError T) Unit)))
    (d : Config (NodeImpl T) (Fallible T × Except (KError T) Unit))
    (st : DSteps ⟨h, ts.map Client.prog⟩ d) (i : Nat) (pre : Client T (Fallible T))
    (hi : ts[i]? = some (pre.andThen fun f => .call f.call fun r => .done (f, r)))
    (f : Fallible T) (a b : String) :
    d.threads[i]? ≠ some (.ret (f, .error (.mimicError a b))) := fun e =>
  not_mimicError (C69_contracts h u ts d st i _ hi (fun fr => Answer h fr.1.call fr.2)
    (yields_andThen _ _ fun _ _ hr => hr) _ e)

/-! ## non-triviality -/

/-- a movable joint `a` (0) that a Fixed joint `b` (1) mimics -/
def exFixedFollower : KHeap T where
  get := fun n =>
    if n = 0 then { NodeImpl.fresh (Joint.new "a" (.linear ⟨1, 0, 0⟩)) with mimicChildren := [1] }
    else { NodeImpl.fresh (Joint.new "b" .fixed) with mimicParent := some 0, mimic := some ⟨1, 0⟩ }
  next := 2
  dead := fun _ => false
  held := fun _ => false

/-- the error of a follower -/
example (x : T) : ∃ h', run (Node.setJointPosition 0 x) (exFixedFollower (T := T))
    = .ok (.error (.setToFixed "b")) h' := ⟨_, rfl⟩
/-- a vector of the wrong length -/
example (x : T) : ∃ h', run (Chain.setJointPositions ⟨[0, 1], [0], 1⟩ [x, x]) (exFixedFollower (T := T))
    = .ok (.error (.sizeMismatch 2 1)) h' := ⟨_, rfl⟩

/-- a thread that looks up the joint `b`, in a graph that two other threads keep changing, finds node 1,
and learns from the joint itself that it has no position -/
example (x : T) (ts : List (Client T (Option NodeId × Option T)))
    (d : Config (NodeImpl T) (Option NodeId × Option T))
    (st : DSteps ⟨exFixedFollower, (Client.call (.find ⟨[0, 1], [0], 1⟩ "b") fun o =>
      .call (.jointPosition 1) fun p => .done (o, p)) :: ts |>.map Client.prog⟩ d)
    (r : Option NodeId × Option T) (e : d.threads[0]? = some (.ret r)) : r = (some 1, none) := by
  refine C69_contracts exFixedFollower (fun _ => rfl) _ d st 0 _ rfl (fun r => r = (some 1, none)) ?_ r e
  intro o ho p hp
  have l : ∀ n ∈ [0, 1], n < (exFixedFollower (T := T)).next := by simp [exFixedFollower]
  have a := ho.2 l
  have b := (hp Nat.one_lt_two).2 (by simp [exFixedFollower, NodeImpl.fresh, Joint.new])
  show (o, p) = _
  rw [a, b]
  simp [exFixedFollower, NodeImpl.fresh, Joint.new, List.find?]

end K
