import Verif.Props.Total
/-!
# C73: exactly when `solve_with_constraints` returns

Props/Total.lean shows that the conditions of the other calls are also necessary.  Here the same for
`solve_with_constraints`.
-/

set_option linter.unusedSectionVars false

namespace K
open Prog
variable {T : Type} [Scalar T]

/-- no listed node has its parent at its own place or later in the list -/
def NoLaterParent (h : KHeap T) (ns : List NodeId) : Prop :=
  ∀ pre n post, ns = pre ++ n :: post → ∀ p, liveParent h n = some p → p ∈ pre ∨ p ∉ ns

private theorem split_first (P : String → Prop) (names : List String) (a : String) (ha : a ∈ names) (na : ¬ P a) :
    ∃ pre b post, names = pre ++ b :: post ∧ (∀ x ∈ pre, P x) ∧ ¬ P b := by
  induction names with
  | nil => cases ha
  | cons x xs ih =>
    by_cases px : P x
    · obtain ⟨pre, b, post, e, h1, h2⟩ := ih (by
        rcases List.mem_cons.1 ha with rfl | h
        · exact absurd px na
        · exact h)
      exact ⟨x :: pre, b, post, by rw [e]; rfl, by simpa [px] using h1, h2⟩
    · exact ⟨[], x, xs, rfl, by simp, px⟩

private theorem svd_empty {s : IkSolver T} {ops : List Bool} {ign : List Nat} {dof : Nat} {jac : Mat T}
    {err orig : List T} (z : countTrue ops = 0) (av : 0 < dof - ign.length)
    {x : Except (KError T) (List T)} (e : nextPositions s ops ign dof jac err orig = .ok x) : False := by
  unfold nextPositions at e
  simp only [Bind.bind, Except.bind, z, gt_iff_lt, av, if_true] at e
  split at e
  · cases e
  · split at e
    · cases e
    · cases e

/-- **C73** (`solve_with_constraints`).  For a chain that names no node twice, whose joints are within their
limits and whose nodes do not stand before their parents, with distinct names of ignored joints and with
solvers and a nullspace function that answer in the right size: the call returns exactly if not more joints
are ignored than there are, and either it is refused at once (too few joints, or an unknown name) or at least
one iteration is allowed, every parent's world transform is known, and something is constrained unless every
joint is ignored. -/
theorem C73_solve_iff (h : KHeap T) (sd : Sound h) (ol : OneLevel h) (s : IkSolver T) (arm : Chain)
    (target : Iso T) (c : Constraints) (w : arm.Wf h) (nd : arm.nodes.Nodup) (re : Restorable h arm)
    (late : NoLaterParent h arm.nodes) (distinct : c.ignoredJointNames.Nodup) (la : s.la.Sized)
    (null : ∀ f, s.nullspaceFunction = some f → ∀ q : List T, q.length = arm.dof →
      ∃ y, f q = .ok y ∧ y.length = arm.dof) :
    (∃ r h', run (solveWithConstraints s arm target c) h = .ok r h') ↔
      c.ignoredJointNames.length ≤ arm.dof ∧
        (arm.dof - c.ignoredJointNames.length < numConstrained c ∨
          (∃ a ∈ c.ignoredJointNames, ∀ n ∈ arm.movableNodes, (h.get n).joint.name ≠ a) ∨
          0 < s.numMaxTry ∧ ParentsKnown h arm.nodes ∧
            (0 < numConstrained c ∨ arm.dof = c.ignoredJointNames.length)) := by
  have u := sd.built.unlocked
  constructor
  · rintro ⟨r, h', e⟩
    obtain ⟨le, r1, h1, -, cs⟩ := solve_ok c h h' u w r e
    refine ⟨le, ?_⟩
    rw [(C30_count (T := T) c).1] at cs
    rcases cs with ⟨lt, -⟩ | ⟨ge, cs⟩
    · exact .inl lt
    refine .inr ?_
    by_cases known : ∀ b ∈ c.ignoredJointNames, ∃ n ∈ arm.movableNodes, (h.get n).joint.name = b
    · right
      have tr : 0 < s.numMaxTry := by
        rcases Nat.eq_zero_or_pos s.numMaxTry with z | z
        · obtain ⟨m, h2, e2⟩ := C29_zero_panics (s := s) (target := target) h u ol w nd re z le ge known
          rw [e2] at e; cases e
        · exact z
      rcases cs with ⟨a, ni, -⟩ | ⟨is, ni, t⟩
      · exfalso
        obtain ⟨is, e⟩ : ∃ is, nameIndices h arm.movableNodes c.ignoredJointNames = .ok is := by
          generalize c.ignoredJointNames = names at known
          induction names with
          | nil => exact ⟨[], rfl⟩
          | cons b bs ih =>
            obtain ⟨is, e⟩ := ih fun b hb => known b (by simp [hb])
            obtain ⟨n, hn, eb⟩ := known b (by simp)
            cases f : arm.movableNodes.findIdx? fun n => (h.get n).joint.name == b with
            | none =>
              rw [List.findIdx?_eq_none_iff] at f
              exact absurd eb (by simpa using f n hn)
            | some i => exact ⟨i :: is, by simp [nameIndices, f, e]⟩
        rw [ni] at e; cases e
      · obtain ⟨k, hk⟩ : ∃ k, s.numMaxTry = k + 1 := ⟨s.numMaxTry - 1, by omega⟩
        rw [hk] at t
        simp only [tryLoop, run_bind] at t
        obtain ⟨x, h2, e2, -⟩ := Res.bind_eq_ok t
        refine ⟨tr, ?_, ?_⟩
        · have e3 := e2
          simp only [solveOneLoop, run_bind, run_jointPositions h u arm w, Res.bind_ok,
            run_endTransform _ _ u] at e3
          obtain ⟨jac, h3, e3, -⟩ := Res.bind_eq_ok e3
          exact ((jacobian_iff h u arm).1 ⟨jac, h3, e3⟩).1
        · obtain ⟨h3, jac, y, -, -, ey, -⟩ := solveOneLoop_ok s arm target _ _ h h2 u w x e2
          by_contra no
          have hl : (sortedIndices is).length = c.ignoredJointNames.length := by
            simp only [sortedIndices, List.length_mergeSort]
            exact (nameIndices_mem ni).1
          have hc := (C30_count (T := T) c).1
          exact svd_empty (by omega) (by omega) ey
    · left
      push Not at known
      exact known
  · rintro ⟨le, cs⟩
    by_cases lt : arm.dof - c.ignoredJointNames.length < numConstrained c
    · obtain ⟨h', e, -⟩ := C28_precondition (s := s) (target := target) h u ol w nd re le lt
      exact ⟨_, _, e⟩
    by_cases bad : ∃ a ∈ c.ignoredJointNames, ∀ n ∈ arm.movableNodes, (h.get n).joint.name ≠ a
    · obtain ⟨a, ha, na⟩ := bad
      obtain ⟨pre, b, post, e, ok, nb⟩ := split_first
        (fun b => ∃ n ∈ arm.movableNodes, (h.get n).joint.name = b) _ a ha
        (by rintro ⟨n, hn, x⟩; exact na n hn x)
      obtain ⟨h', e, -⟩ := C28_invalid_name (s := s) (target := target) h u ol w nd re le (Nat.not_lt.1 lt) pre post b e ok
        (by intro n hn x; exact nb ⟨n, hn, x⟩)
      exact ⟨_, _, e⟩
    rcases cs with x | x | ⟨tr, pk, co⟩
    · exact absurd x lt
    · exact absurd x bad
    · refine solve_total h u sd.built.mimic s arm target c
        ⟨w, ?_, le, distinct, tr, co, la, null⟩
      intro pre n post e p hp
      rcases late pre n post e p hp with x | x
      · exact .inl x
      · exact (pk pre n post e p hp).imp id fun y => ⟨x, y⟩

/-! ## Examples -/

private theorem rail_sound : Sound (rail none none 0 0) := by
  have mc : ∀ m, ((rail none none 0 0).get m).mimicChildren = [] := by
    intro m; simp only [rail]; split_ifs <;> rfl
  have ch : ∀ m, ((rail none none 0 0).get m).children = if m = 0 then [1] else [] := by
    intro m; simp only [rail]; split_ifs <;> rfl
  have pa : ∀ m, ((rail none none 0 0).get m).parent = if m = 1 then some 0 else none := by
    intro m; simp only [rail]; split_ifs <;> first | rfl | omega
  refine ⟨⟨fun _ => rfl, (fun m c hc => by rw [mc] at hc; cases hc),
    (fun m c hc => by rw [mc] at hc; cases hc)⟩, ⟨?_, ?_, ?_, ⟨id, ?_⟩⟩⟩
  · intro p c
    rw [ch, pa]
    by_cases hp : p = 0 <;> by_cases hc : c = 1 <;> simp [hp, hc]
    exact fun e => hp e.symm
  · intro p
    rw [ch]; split_ifs <;> simp
  · intro p c hc
    rw [ch] at hc
    have : (rail none none 0 0).next = 2 := rfl
    rw [this]
    split_ifs at hc with hp
    · simp only [List.mem_singleton] at hc; subst hc hp; exact ⟨by decide, by decide⟩
    · cases hc
  · intro p c e
    rw [pa] at e
    split_ifs at e with hc
    cases e; subst hc; exact Nat.zero_lt_one

private theorem rail_late : NoLaterParent (rail none none 0 0) arm2.nodes :=
  fun pre n post e p hp => (rail_ready2 none none 0 0 pre n post e p hp).imp id And.left

private theorem rail_iff (s : IkSolver ℝ) (target : Iso ℝ) (c : Constraints) (la : s.la.Sized)
    (null : s.nullspaceFunction = none) (distinct : c.ignoredJointNames.Nodup) :
    (∃ r h', run (solveWithConstraints s arm2 target c) (rail none none 0 0) = .ok r h') ↔
      c.ignoredJointNames.length ≤ 2 ∧
        (2 - c.ignoredJointNames.length < numConstrained c ∨
          (∃ a ∈ c.ignoredJointNames, a ≠ "a" ∧ a ≠ "b") ∨
          0 < s.numMaxTry ∧ (0 < numConstrained c ∨ 2 = c.ignoredJointNames.length)) := by
  have mc : ∀ m, ((rail none none 0 0).get m).mimicChildren = [] := by
    intro m; simp only [rail]; split_ifs <;> rfl
  have mp : ∀ m, ((rail none none 0 0).get m).mimicParent = none := by
    intro m; simp only [rail]; split_ifs <;> rfl
  have li : ∀ m, ((rail none none 0 0).get m).joint.limits = none := by
    intro m; simp only [rail]; split_ifs <;> rfl
  rw [C73_solve_iff _ rail_sound (fun m c hc => by rw [mc] at hc; cases hc) s arm2 target c
    (rail_sliders none none 0 0).wf2 (by simp [arm2])
    ⟨(fun n _ _ r hr => by rw [li] at hr; cases hr), (fun n _ _ k hk => by rw [mc] at hk; cases hk),
      (fun n _ m hm => by rw [mp] at hm; cases hm)⟩
    rail_late distinct la (fun f e => by rw [null] at e; cases e)]
  have names : ∀ a, (∀ n ∈ arm2.movableNodes, ((rail none none 0 0).get n).joint.name ≠ a) ↔
      a ≠ "a" ∧ a ≠ "b" := by
    intro a
    simp [arm2, rail, slider, Joint.new, NodeImpl.fresh, eq_comm]
  simp only [names, (rail_ready2 none none 0 0).known, true_and, show arm2.dof = 2 from rfl]

/-- two sliders, the default solver: with one coordinate constrained the call returns, with nothing
constrained it does not, with nothing constrained and everything ignored it does, with nothing constrained
and an unknown name it does, and without iterations it does not -/
example (target : Iso ℝ) :
    (∃ r h', run (solveWithConstraints (IkSolver.default zeroLa) arm2 target (onlyX []))
      (rail none none 0 0) = .ok r h') ∧
    (¬ ∃ r h', run (solveWithConstraints (IkSolver.default zeroLa) arm2 target
      ⟨false, false, false, false, false, false, ["a"]⟩) (rail none none 0 0) = .ok r h') ∧
    (∃ r h', run (solveWithConstraints (IkSolver.default zeroLa) arm2 target
      ⟨false, false, false, false, false, false, ["a", "b"]⟩) (rail none none 0 0) = .ok r h') ∧
    (∃ r h', run (solveWithConstraints (IkSolver.default zeroLa) arm2 target
      ⟨false, false, false, false, false, false, ["x"]⟩) (rail none none 0 0) = .ok r h') ∧
    ¬ ∃ r h', run (solveWithConstraints { IkSolver.default zeroLa with numMaxTry := 0 } arm2 target
      (onlyX [])) (rail none none 0 0) = .ok r h' := by
  refine ⟨?_, ?_, ?_, ?_, ?_⟩
  all_goals rw [rail_iff _ _ _ (by exact zeroLa_sized) rfl (by simp [onlyX])]
  all_goals simp [onlyX, numConstrained, IkSolver.default, IkSolver.new]

end K
