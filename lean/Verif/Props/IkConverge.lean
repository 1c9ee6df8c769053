import Verif.Props.IkStep
import Verif.Props.Reach
import Mathlib.Analysis.SpecificLimits.Basic
/-!
# C70: convergence of the solver on arms of sliding joints
-/

namespace K
open Prog

noncomputable section

/-- a rooted non-branching chain of Fixed joints and sliding joints without limits -/
structure Sliding (h : KHeap ℝ) (c : Chain) : Prop where
  unlocked : h.Unlocked
  wf : c.Wf h
  root : ∃ n rest, c.nodes = n :: rest ∧ liveParent h n = none
  serial : Serial h c.nodes
  nodup : c.nodes.Nodup
  rigid : AllRigid h c.nodes
  slides : ∀ n ∈ c.nodes, ∀ a, (h.get n).joint.jointType ≠ .rotational a
  free : ∀ n ∈ c.movableNodes, (h.get n).joint.limits = none

theorem SameBut.liveParent {h h' : KHeap ℝ} (s : SameBut h h') (n : NodeId) :
    liveParent h' n = liveParent h n := by
  unfold K.liveParent; rw [s.parent, s.dead]

theorem Sliding.same {h h' : KHeap ℝ} {c : Chain} (l : Sliding h c) (s : SameBut h h') :
    Sliding h' c := by
  obtain ⟨n, rest, e, r⟩ := l.root
  exact ⟨s.unlocked l.unlocked, s.chainWf l.wf, ⟨n, rest, e, by rw [s.liveParent]; exact r⟩,
    fun pre a b post e => by rw [s.liveParent]; exact l.serial pre a b post e, l.nodup,
    s.allRigid l.rigid, fun n hn a => by rw [s.jointType]; exact l.slides n hn a,
    fun n hn => by rw [s.limits]; exact l.free n hn⟩

theorem Sliding.movableNodup {h : KHeap ℝ} {c : Chain} (l : Sliding h c) : c.movableNodes.Nodup := by
  rw [l.wf.movable]; exact l.nodup.filter _

theorem Sliding.movable {h : KHeap ℝ} {c : Chain} (l : Sliding h c) {n : NodeId}
    (hn : n ∈ c.movableNodes) : (h.get n).joint.jointType ≠ .fixed := by
  rw [l.wf.movable, List.mem_filter] at hn
  exact (decide_eq_true_iff (p := Movable h n)).1 hn.2

/-- the local transform of a joint that does not turn -/
theorem local_slides (j : Joint ℝ) (s : ∀ a, j.jointType ≠ .rotational a) (y : ℝ) :
    (j.at y).localTransform.rot = j.localTransform.rot ∧
    (j.at y).localTransform.trans = j.localTransform.trans.add
      ((colLin V3.zero j j.localTransform).scale (y - j.position)) := by
  rcases j with ⟨nm, jt, p, v, lim, o, c1, c2⟩
  cases jt with
  | rotational a => exact absurd rfl (s a)
  | fixed =>
    refine ⟨rfl, ?_⟩
    ext <;> simp [Joint.at, Joint.localTransform, Joint.jointTransform, colLin, V3.add, V3.scale, V3.zero]
  | linear a =>
    refine ⟨rfl, ?_⟩
    have r : (⟨nm, .linear a, p, v, lim, o, c1, c2⟩ : Joint ℝ).localTransform.rot = o.rot :=
      Quat.mul_one' _
    simp only [colLin, r]
    simp only [Joint.at, Joint.localTransform, Joint.jointTransform, Iso.mul, Quat.rotate_scale]
    ext <;> simp only [V3.add, V3.scale] <;> ring

/-- how the end moves when the joints do -/
theorem prodFrom_slides (h h' : KHeap ℝ) (sb : SameBut h h') (ns : List NodeId) (ar : AllRigid h ns)
    (sl : ∀ n ∈ ns, ∀ a, (h.get n).joint.jointType ≠ .rotational a) (X X' : Iso ℝ) (rX : X.IsRigid)
    (re : X'.rot = X.rot) (pn : V3 ℝ) :
    (prodFrom h' X' ns).rot = (prodFrom h X ns).rot ∧
    (prodFrom h' X' ns).trans = ((prodFrom h X ns).trans.add (X'.trans.sub X.trans)).add
      (totLin (fun m => (h.get m).joint)
        (fun m => (h'.get m).joint.position - (h.get m).joint.position) pn X ns) := by
  induction ns generalizing X X' with
  | nil =>
    refine ⟨re, ?_⟩
    ext <;> simp [prodFrom, totLin, V3.add, V3.sub, V3.zero]
  | cons n ns ih =>
    have lt : (h'.get n).joint.localTransform =
        ((h.get n).joint.at (h'.get n).joint.position).localTransform := by
      obtain ⟨p, wt, wv, e⟩ := sb.node n
      rw [e]; rfl
    obtain ⟨lr, ltr⟩ := local_slides (h.get n).joint (sl n (by simp)) (h'.get n).joint.position
    have rj := Joint.localTransform_isRigid (ar n (by simp))
    obtain ⟨a, b⟩ := ih (fun m hm => ar m (by simp [hm])) (fun m hm => sl m (by simp [hm]))
      (X.mul (h.get n).joint.localTransform) (X'.mul (h'.get n).joint.localTransform) (rX.mul rj)
      (by rw [lt]; simp only [Iso.mul, re, lr])
    refine ⟨a, ?_⟩
    show (prodFrom h' (X'.mul (h'.get n).joint.localTransform) ns).trans =
      ((prodFrom h (X.mul (h.get n).joint.localTransform) ns).trans.add _).add (V3.add _ _)
    rw [b]
    have cl : ∀ q, colLin q (h.get n).joint (X.mul (h.get n).joint.localTransform) =
        X.rot.rotate (colLin V3.zero (h.get n).joint (h.get n).joint.localTransform) := by
      intro q
      unfold colLin
      cases e : (h.get n).joint.jointType with
      | rotational a => exact absurd e (sl n (by simp) a)
      | fixed => exact (Quat.rotate_zero _).symm
      | linear a => exact Quat.rotate_mul rX rj a
    have d : (X'.mul (h'.get n).joint.localTransform).trans.sub (X.mul (h.get n).joint.localTransform).trans
        = (X'.trans.sub X.trans).add ((X.rot.rotate (colLin V3.zero (h.get n).joint
          (h.get n).joint.localTransform)).scale
            ((h'.get n).joint.position - (h.get n).joint.position)) := by
      simp only [Iso.mul, lt, ltr, re, Quat.rotate_add, Quat.rotate_scale]
      ext <;> simp only [V3.add, V3.sub, V3.scale] <;> ring
    rw [d, cl]
    ext <;> simp only [V3.add, V3.sub, V3.scale] <;> ring

/-- the Jacobian of a sliding arm does not depend on the positions, its angular rows are zero, and it gives
the displacement of the end exactly -/
theorem Sliding.jacobian {h : KHeap ℝ} {c : Chain} (l : Sliding h c) :
    ∃ jac g, run (jacobian c) h = .ok jac g ∧
      (∀ i, 3 ≤ i → ∀ d, rowSum jac i d = 0) ∧
      ∀ h', SameBut h h' → (∃ g', run (K.jacobian c) h' = .ok jac g') ∧
        (endPose h' c.nodes).rot = (endPose h c.nodes).rot ∧
        ∀ d, d = c.movableNodes.map (fun m => (h'.get m).joint.position - (h.get m).joint.position) →
          (endPose h' c.nodes).trans.sub (endPose h c.nodes).trans =
            ⟨rowSum jac 0 d, rowSum jac 1 d, rowSum jac 2 d⟩ := by
  obtain ⟨n, rest, hc, root⟩ := l.root
  obtain ⟨jac, g, W, e, hW, hjac⟩ := jacobian_columns h l.unlocked c l.wf n rest hc l.serial root
  refine ⟨jac, g, e, ?_, fun h' sb => ⟨?_, ?_, ?_⟩⟩
  · intro i hi d
    have z : ∀ col ∈ jac, col.getD i 0 = 0 := by
      rw [hjac]
      intro col hcol
      obtain ⟨k, hk, rfl⟩ := List.mem_map.1 hcol
      have a0 : colAng (h.get k).joint (W k) = V3.zero := by
        unfold colAng
        cases ek : (h.get k).joint.jointType with
        | rotational a => exact absurd ek (l.slides k (l.wf.sub k hk) a)
        | fixed => rfl
        | linear a => rfl
      rw [a0]
      match i, hi with
      | 3, _ => rfl
      | 4, _ => rfl
      | 5, _ => rfl
      | k + 6, _ => rfl
    unfold rowSum
    have : ∀ p ∈ jac.zip d, p.1.getD i 0 * p.2 = 0 := fun p hp => by
      rw [z p.1 (List.of_mem_zip hp).1, zero_mul]
    rw [List.map_congr_left this]
    simp
  · have l' := l.same sb
    obtain ⟨jac', g', W', e', hW', hjac'⟩ := jacobian_columns h' l'.unlocked c l'.wf n rest hc l'.serial
      (by rw [sb.liveParent]; exact root)
    refine ⟨g', ?_⟩
    rw [e', hjac', hjac]
    congr 1
    refine List.map_congr_left fun k hk => ?_
    have hk' := l.wf.sub k hk
    obtain ⟨p, post, split⟩ := List.append_of_mem hk'
    have rot : (W' k).rot = (W k).rot := by
      rw [hW p k post split, hW' p k post split]
      have hs : ∀ m ∈ p ++ [k], m ∈ c.nodes := by
        intro m hm; rw [split]; simp only [List.mem_append, List.mem_cons, List.not_mem_nil, or_false] at hm ⊢
        tauto
      exact (prodFrom_slides h h' sb _ (fun m hm => l.rigid m (hs m hm)) (fun m hm => l.slides m (hs m hm))
        Iso.one Iso.one Iso.one_isRigid rfl V3.zero).1
    unfold colLin colAng
    rw [sb.jointType]
    cases ek : (h.get k).joint.jointType with
    | rotational a => exact absurd ek (l.slides k hk' a)
    | fixed => rfl
    | linear a => simp only [rot]
  · exact (prodFrom_slides h h' sb c.nodes l.rigid l.slides Iso.one Iso.one Iso.one_isRigid rfl V3.zero).1
  · intro d hd
    have eq := (prodFrom_slides h h' sb c.nodes l.rigid l.slides Iso.one Iso.one Iso.one_isRigid rfl
      (endPose h c.nodes).trans).2
    have al : Along (fun m => (h.get m).joint) W Iso.one c.nodes := along_of h W [] c.nodes hW
    have linSum : ∀ (π : V3 ℝ → ℝ) (i : Nat), π V3.zero = 0 → (∀ a b, π (a.add b) = π a + π b) →
        (∀ a x, π (a.scale x) = π a * x) → (∀ d a : V3 ℝ, (twist d a).getD i 0 = π d) →
        π (totLin (fun m => (h.get m).joint)
          (fun m => (h'.get m).joint.position - (h.get m).joint.position)
          (endPose h c.nodes).trans Iso.one c.nodes) = rowSum jac i d := by
      intro π i h0 ha hs hi
      rw [totLin_sum _ W _ _ π h0 ha _ _ al, hjac, hd, zip_map_sum,
        sum_filter_zero _ (fun m => decide (Movable h m)) _ ?_, ← l.wf.movable]
      · congr 1
        refine List.map_congr_left fun k _ => ?_
        rw [hi, hs]
      · intro m hm x
        have x : ¬ Movable h m := by simpa using x
        have x : (h.get m).joint.jointType = .fixed := not_not.1 x
        simp only [colLin, x, hs, h0, zero_mul]
    rw [← linSum V3.x 0 rfl (fun _ _ => rfl) (fun _ _ => rfl) fun _ _ => rfl,
      ← linSum V3.y 1 rfl (fun _ _ => rfl) (fun _ _ => rfl) fun _ _ => rfl,
      ← linSum V3.z 2 rfl (fun _ _ => rfl) (fun _ _ => rfl) fun _ _ => rfl]
    have eq' : (endPose h' c.nodes).trans = _ := eq
    rw [eq']
    show ((V3.add (V3.add (endPose h c.nodes).trans _) _).sub _) = _
    ext <;> simp [V3.add, V3.sub]

/-- What is assumed of the linear algebra and of the nullspace function of the solver, for an arm with `dof`
joints, the Jacobian `jac` and the ignored joints `ign`: linear systems are solved, a square one always has
a solution, and the nullspace function returns one value per joint. -/
structure IkSolver.Able (s : IkSolver ℝ) (cs : Constraints) (dof : Nat) (ign : List Nat) (jac : Mat ℝ) :
    Prop where
  solves : s.la.Solves (countTrue (defineOperationalSpace cs)) (dof - ign.length)
    (reducedJac (defineOperationalSpace cs) ign jac)
  regular : countTrue (defineOperationalSpace cs) = dof - ign.length →
    ∀ b, b.length = countTrue (defineOperationalSpace cs) →
      ∃ x, s.la.lu (reducedJac (defineOperationalSpace cs) ign jac) b = some x
  null : ∀ f, s.nullspaceFunction = some f → ∀ q, q.length = dof → ∃ y, f q = .ok y ∧ y.length = dof

/-- an able solver finds the next positions -/
theorem nextPositions_able (s : IkSolver ℝ) (cs : Constraints) (ign : List Nat)
    (jac : Mat ℝ) (full orig : List ℝ)
    (srt : ign.Pairwise (· < ·)) (lt : ∀ j ∈ ign, j < orig.length)
    (lj : jac.length = orig.length) (hj : ∀ col ∈ jac, col.length = 6) (lf : full.length = 6)
    (able : s.Able cs orig.length ign jac) (some : 0 < countTrue (defineOperationalSpace cs))
    (enough : countTrue (defineOperationalSpace cs) ≤ orig.length - ign.length) :
    ∃ ps, nextPositions s (defineOperationalSpace cs) ign orig.length jac
      (selectFlags (defineOperationalSpace cs) full) orig = .ok (.ok ps) := by
  obtain ⟨la, reg, null⟩ := able
  generalize hops : defineOperationalSpace cs = ops at *
  have ho : ops.length = 6 := by rw [← hops]; rfl
  have rr : removeRows ops 0 0 jac = .ok (jac.map (selectFlags ops)) := by
    rw [removeRows_eq ops 0 0 jac (Nat.le_refl _) (by intro col hc; rw [hj col hc, ho])]
    simp
  have ri : removeIndices ign 0 (jac.map (selectFlags ops)) = .ok (reducedJac ops ign jac) := by
    rw [removeIndices_ok ign 0 _ srt (by simp) (by simpa [lj] using lt)]
    simp [reducedJac, dropIdx_eq]
  have lJ : (reducedJac ops ign jac).length = orig.length - ign.length := by
    have := removeIndices_length _ _ _ _ ri
    simp only [List.length_map, lj] at this; omega
  have il : ign.length ≤ orig.length := by
    have := removeIndices_length _ _ _ _ ri
    simp only [List.length_map, lj] at this; omega
  have hJ : ∀ col ∈ reducedJac ops ign jac, col.length = countTrue ops := by
    intro col hc
    have := dropFrom_subset 0 ign _ col hc
    obtain ⟨x, hx, rfl⟩ := List.mem_map.1 this
    exact selectFlags_length ops x (by rw [hj x hx, ho])
  have lerr : (selectFlags ops full).length = countTrue ops :=
    selectFlags_length ops full (by rw [lf, ho])
  have ins : ∀ ys : List ℝ, ys.length = orig.length - ign.length → ∃ zs, insertZeros ign ys = .ok zs := by
    intro ys ly
    obtain ⟨zs, e, -⟩ := insertZeros_ok ign ys srt (fun j hj => by have := lt j hj; omega)
    exact ⟨zs, e⟩
  simp only [nextPositions, rr, ri, Bind.bind, Except.bind]
  by_cases gt : orig.length - ign.length > countTrue ops
  · rw [if_pos gt, if_neg (by omega)]
    rcases hf : s.nullspaceFunction with _ | f
    · obtain ⟨zs, e⟩ := ins _ (la.svd _ lerr).1
      simp only [e]
      exact ⟨_, rfl⟩
    · obtain ⟨y, ey, ly⟩ := null f hf orig rfl
      obtain ⟨sub, hs⟩ : ∃ sub, removeIndices ign 0 y = .ok sub :=
        ⟨_, removeIndices_ok ign 0 y srt (by simp) (by simpa [ly] using lt)⟩
      have lsub := removeIndices_length _ _ _ _ hs
      simp only [ey, hs]
      rw [if_neg (by omega)]
      obtain ⟨ln, -⟩ := nullspaceStep_effect (countTrue ops) (orig.length - ign.length)
        (reducedJac ops ign jac) (s.la.pinv (reducedJac ops ign jac)) (selectFlags ops full) sub hJ lJ
        la.pinvRows la.pinvCols (by omega) la.penrose
      obtain ⟨zs, e⟩ := ins _ ln
      simp only [e]
      exact ⟨_, rfl⟩
  · rw [if_neg gt]
    obtain ⟨x, e⟩ := reg (by omega) _ lerr
    simp only [e]
    exact ⟨_, rfl⟩

/-- clamping free joints sets them -/
theorem Sliding.clamp {h : KHeap ℝ} {c : Chain} (l : Sliding h c) (ps : List ℝ) (i : Nat) (m : NodeId)
    (x : ℝ) (hm : c.movableNodes[i]? = some m) (hx : ps[i]? = some x) :
    ((clampAll (c.movableNodes.zip ps) h).get m).joint.position = x := by
  have mem : (m, x) ∈ c.movableNodes.zip ps := by
    refine List.mem_of_getElem? (i := i) ?_
    rw [List.getElem?_zip_eq_some]; exact ⟨hm, hx⟩
  have mm : m ∈ c.movableNodes := List.mem_of_getElem? hm
  rw [clampAll_get _ _ (l.movableNodup.sublist (zip_fst_sublist _ _)) _ mem]
  have mv : (h.get m).joint.isMovable = true := (isMovable_iff _).2 (l.movable mm)
  simp [Joint.setJointPositionClamped, mv, Joint.setJointPositionUnchecked, l.free m mm]

/-- one iteration on a sliding arm -/
theorem Sliding.step {sv : IkSolver ℝ} {arm : Chain} {target : Iso ℝ} {cs : Constraints} {ign : List Nat}
    {h : KHeap ℝ} (l : Sliding h arm) {jac : Mat ℝ} {g : KHeap ℝ} (hjac : run (K.jacobian arm) h = .ok jac g)
    (srt : ign.Pairwise (· < ·)) (lt : ∀ j ∈ ign, j < arm.dof)
    (able : sv.Able cs arm.dof ign jac) (some : 0 < countTrue (defineOperationalSpace cs))
    (enough : countTrue (defineOperationalSpace cs) ≤ arm.dof - ign.length)
    (branch : ign = [] ∨ countTrue (defineOperationalSpace cs) < arm.dof - ign.length)
    (sol : ∃ d : List ℝ, d.length = arm.dof ∧ (∀ j ∈ ign, d[j]? = .some 0) ∧
      ∀ i : Nat, (defineOperationalSpace cs)[i]? = .some true →
        rowSum jac i d = (calcPoseDiff target (endPose h arm.nodes)).getD i 0) :
    ∃ h1, run (solveOneLoop sv arm target (defineOperationalSpace cs) ign) h =
        .ok (.ok (calcPoseDiffWithConstraints target (endPose h1 arm.nodes)
          (defineOperationalSpace cs))) h1 ∧
      Moved arm.nodes h h1 ∧
      ∀ i : Nat, (defineOperationalSpace cs)[i]? = .some true →
        (calcPoseDiff target (endPose h1 arm.nodes)).getD i 0 =
          (1 - sv.jacobianMultiplier) * (calcPoseDiff target (endPose h arm.nodes)).getD i 0 := by
  have u := l.unlocked
  have w := l.wf
  obtain ⟨ow, cols⟩ := jacobian_ok arm h g u jac hjac
  have lo : (posList h arm.movableNodes).length = arm.dof := by simp [posList, w.dof]
  have lj : jac.length = (posList h arm.movableNodes).length := by
    rw [← cols.length_eq]; simp [posList]
  have hj : ∀ col ∈ jac, col.length = 6 := by
    intro col hcol
    obtain ⟨i, hi, rfl⟩ := List.getElem_of_mem hcol
    exact isColumn_length (cols.get (i := i) (by rw [cols.length_eq]; exact hi) hi)
  obtain ⟨ps, np⟩ := nextPositions_able sv cs ign jac (calcPoseDiff target (endPose h arm.nodes))
    (posList h arm.movableNodes) srt (by rw [lo]; exact lt) lj hj rfl (by rw [lo]; exact able) some
    (by rw [lo]; exact enough)
  obtain ⟨lps, hstep⟩ := C59_step sv cs ign jac (calcPoseDiff target (endPose h arm.nodes))
    (posList h arm.movableNodes) ps srt (by rw [lo]; exact lt) lj hj rfl (by rw [lo]; exact able.solves)
    (by rw [lo]; exact enough) (by rw [lo]; exact branch) (by rw [lo]; exact sol) np
  have m := moved_clamp_chain (h' := g) w ps
  have u1 := ow.unlocked u
  have mv := ow.moved.trans m
  rw [lo] at np
  refine ⟨clampAll (arm.movableNodes.zip ps) g, ?_, mv, fun i hi => ?_⟩
  · unfold posList at np
    have np' : nextPositions sv (defineOperationalSpace cs) ign arm.dof jac
        (calcPoseDiffWithConstraints target (endPose h arm.nodes) (defineOperationalSpace cs))
        (arm.movableNodes.map fun n => (h.get n).joint.position) = .ok (.ok ps) := np
    simp only [solveOneLoop, run_bind, run_jointPositions h u arm w, Res.bind_ok,
      run_endTransform _ _ u, hjac, np', run_ofExcept_ok, run_setJointPositionsClamped _ _ _ u1,
      run_endTransform _ _ (m.unlocked u1), run_pure]
  · have lg := l.same ow.moved.sameBut
    obtain ⟨jac', g', e', ang, disp⟩ := l.jacobian
    rw [hjac] at e'; cases e'
    obtain ⟨-, rot, dsp⟩ := disp _ mv.sameBut
    have dd : vsub ps (posList h arm.movableNodes) = arm.movableNodes.map (fun m =>
        ((clampAll (arm.movableNodes.zip ps) g).get m).joint.position - (h.get m).joint.position) := by
      refine List.ext_getElem (by simp [vsub, lps, posList]) fun k h1 h2 => ?_
      have hk : k < arm.movableNodes.length := by simpa using h2
      have hp : k < ps.length := by rw [lps, lo, w.dof]; exact hk
      have := lg.clamp ps k arm.movableNodes[k] ps[k] (List.getElem?_eq_getElem hk)
        (List.getElem?_eq_getElem hp)
      simp only [vsub, List.getElem_zipWith, List.getElem_map, posList, this]
    have dsp := dsp _ dd
    have hs := hstep i hi
    have cx := congrArg V3.x dsp
    have cy := congrArg V3.y dsp
    have cz := congrArg V3.z dsp
    simp only [V3.sub] at cx cy cz
    match i, hi, hs with
    | 0, _, hs =>
      simp only [calcPoseDiff, List.getD_cons_zero, V3.sub] at hs ⊢
      linarith
    | 1, _, hs =>
      simp only [calcPoseDiff, List.getD_cons_succ, List.getD_cons_zero, V3.sub] at hs ⊢
      linarith
    | 2, _, hs =>
      simp only [calcPoseDiff, List.getD_cons_succ, List.getD_cons_zero, V3.sub] at hs ⊢
      linarith
    | 3, hi, _ =>
      obtain ⟨d, -, -, hd⟩ := sol
      have := hd 3 hi
      rw [ang 3 (by omega)] at this
      simp only [calcPoseDiff, List.getD_cons_succ, List.getD_cons_zero, rot] at this ⊢
      rw [← this]; ring
    | 4, hi, _ =>
      obtain ⟨d, -, -, hd⟩ := sol
      have := hd 4 hi
      rw [ang 4 (by omega)] at this
      simp only [calcPoseDiff, List.getD_cons_succ, List.getD_cons_zero, rot] at this ⊢
      rw [← this]; ring
    | 5, hi, _ =>
      obtain ⟨d, -, -, hd⟩ := sol
      have := hd 5 hi
      rw [ang 5 (by omega)] at this
      simp only [calcPoseDiff, List.getD_cons_succ, List.getD_cons_zero, rot] at this ⊢
      rw [← this]; ring
    | k + 6, hi, _ => simp [defineOperationalSpace] at hi

/-- A problem for the solver: `E` is where the end of the arm is, `jac` its Jacobian, `ign` the indices of
the ignored joints; the constrained part of the difference between target and `E` can be removed by moving the
other joints, if the end followed its Jacobian; and no joint is ignored or more joints remain than
coordinates are constrained. -/
structure Posed (sv : IkSolver ℝ) (arm : Chain) (target : Iso ℝ) (cs : Constraints) (h : KHeap ℝ)
    (jac : Mat ℝ) (ign : List Nat) (E : Iso ℝ) : Prop where
  pose : run arm.endTransform h = .ok E h
  hasJac : ∃ g, run (jacobian arm) h = .ok jac g
  names : cs.ignoredJointNames.Nodup
  found : ∀ a ∈ cs.ignoredJointNames, ∃ n ∈ arm.movableNodes, (h.get n).joint.name = a
  sorted : ign.Pairwise (· < ·)
  ignored : ∀ i, i ∈ ign ↔ ∃ a ∈ cs.ignoredJointNames,
    arm.movableNodes.findIdx? (fun n => (h.get n).joint.name == a) = some i
  able : sv.Able cs arm.dof ign jac
  constrained : 0 < numConstrained cs
  enough : cs.ignoredJointNames = [] ∧ numConstrained cs ≤ arm.dof ∨
    numConstrained cs < arm.dof - cs.ignoredJointNames.length
  sol : ∃ d : List ℝ, d.length = arm.dof ∧ (∀ j ∈ ign, d[j]? = .some 0) ∧
    ∀ i : Nat, (defineOperationalSpace cs)[i]? = .some true →
      rowSum jac i d = (calcPoseDiff target E).getD i 0

theorem nameIndices_mem' {h : KHeap ℝ} {ns : List NodeId} {names : List String} {is : List Nat}
    (e : nameIndices h ns names = .ok is) (i : Nat) (hi : i ∈ is) :
    ∃ a ∈ names, ns.findIdx? (fun n => (h.get n).joint.name == a) = some i := by
  induction names generalizing is with
  | nil => cases e; cases hi
  | cons a as ih =>
    rw [nameIndices] at e
    cases f : ns.findIdx? fun n => (h.get n).joint.name == a with
    | none => simp [f] at e
    | some j =>
      simp only [f] at e
      cases g : nameIndices h ns as with
      | error b => simp [g] at e
      | ok js =>
        simp only [g] at e; cases e
        rcases List.mem_cons.1 hi with rfl | hi
        · exact ⟨a, by simp, f⟩
        · obtain ⟨b, hb, x⟩ := ih g hi
          exact ⟨b, by simp [hb], x⟩

theorem nameIndices_found {h : KHeap ℝ} {ns : List NodeId} {names : List String}
    (ok : ∀ a ∈ names, ∃ n ∈ ns, (h.get n).joint.name = a) : ∃ is, nameIndices h ns names = .ok is := by
  induction names with
  | nil => exact ⟨[], rfl⟩
  | cons b bs ih =>
    obtain ⟨is, e⟩ := ih fun b hb => ok b (by simp [hb])
    obtain ⟨n, hn, eb⟩ := ok b (by simp)
    rw [nameIndices]
    cases f : ns.findIdx? fun n => (h.get n).joint.name == b with
    | none =>
      rw [List.findIdx?_eq_none_iff] at f
      have := f n hn; simp [eb] at this
    | some i => exact ⟨i :: is, by simp [e]⟩

theorem endPose_same {h h' : KHeap ℝ} (sb : SameBut h h') (ns : List NodeId)
    (e : ∀ m ∈ ns, (h'.get m).joint.position = (h.get m).joint.position) :
    endPose h' ns = endPose h ns := by
  unfold endPose
  generalize (Iso.one : Iso ℝ) = X
  induction ns generalizing X with
  | nil => rfl
  | cons m ms ih =>
    have lt : (h'.get m).joint.localTransform = (h.get m).joint.localTransform := by
      obtain ⟨p, wt, wv, eq⟩ := sb.node m
      have := e m (by simp)
      rw [eq] at this
      have : p = (h.get m).joint.position := this
      rw [eq, this]; rfl
    rw [List.foldl_cons, List.foldl_cons, lt]
    exact ih (fun k hk => e k (by simp [hk])) _

/-- setting the joints to where they are leaves the end where it is -/
theorem Sliding.clamp_self {h : KHeap ℝ} {c : Chain} (l : Sliding h c) :
    endPose (clampAll (c.movableNodes.zip (posList h c.movableNodes)) h) c.nodes = endPose h c.nodes := by
  have m := moved_clampAll (c.movableNodes.zip (posList h c.movableNodes)) c.movableNodes
    (fun p hp => zip_fst_mem p hp) h
  refine endPose_same m.sameBut _ fun n _ => ?_
  by_cases hn : n ∈ c.movableNodes
  · obtain ⟨i, hi, e⟩ := List.getElem_of_mem hn
    exact l.clamp _ i n _ (by rw [← e]; exact List.getElem?_eq_getElem hi)
      (by simp [posList, List.getElem?_eq_getElem hi, e])
  · rw [m.outside n hn]

/-- the indices of the ignored joints, in order -/
theorem ignored_indices {h : KHeap ℝ} {arm : Chain} {names : List String} {ign : List Nat} (wf : arm.Wf h)
    (nd : names.Nodup) (found : ∀ a ∈ names, ∃ n ∈ arm.movableNodes, (h.get n).joint.name = a)
    (sorted : ign.Pairwise (· < ·))
    (ignored : ∀ i, i ∈ ign ↔ ∃ a ∈ names,
      arm.movableNodes.findIdx? (fun n => (h.get n).joint.name == a) = some i) :
    ∃ is, nameIndices h arm.movableNodes names = .ok is ∧
      sortedIndices is = ign ∧ ign.length = names.length ∧ ∀ j ∈ ign, j < arm.dof := by
  obtain ⟨is, e⟩ := nameIndices_found found
  obtain ⟨srt, len, -⟩ := sortedIndices_spec e nd
  have perm : (sortedIndices is).Perm is := List.mergeSort_perm _ _
  have mem : ∀ i, i ∈ sortedIndices is ↔ i ∈ ign := by
    intro i
    rw [perm.mem_iff, ignored]
    refine ⟨nameIndices_mem' e i, fun ⟨a, ha, x⟩ => ?_⟩
    obtain ⟨j, hj, y⟩ := (nameIndices_mem e).2 a ha
    rw [x] at y; cases y; exact hj
  have eq : sortedIndices is = ign := by
    have n1 : (sortedIndices is).Nodup := srt.imp fun h => Nat.ne_of_lt h
    have n2 : ign.Nodup := sorted.imp fun h => Nat.ne_of_lt h
    exact ((List.perm_ext_iff_of_nodup n1 n2).2 mem).eq_of_pairwise
      (fun a b _ _ h1 h2 => by omega) srt sorted
  refine ⟨is, e, eq, by rw [← eq, len], fun j hj => ?_⟩
  obtain ⟨a, -, x⟩ := (ignored j).1 hj
  rw [List.findIdx?_eq_some_iff_getElem] at x
  obtain ⟨hl, -⟩ := x
  rw [wf.dof]; exact hl

/-- the call, up to the loop -/
theorem run_to_loop {sv : IkSolver ℝ} {arm : Chain} {target : Iso ℝ} {cs : Constraints} {h : KHeap ℝ}
    {is : List Nat} (u : h.Unlocked) (wf : arm.Wf h)
    (ni : nameIndices h arm.movableNodes cs.ignoredJointNames = .ok is)
    (le : cs.ignoredJointNames.length ≤ arm.dof)
    (en : countTrue (defineOperationalSpace cs) ≤ arm.dof - cs.ignoredJointNames.length) :
    run (solveWithConstraints sv arm target cs) h =
    Res.bind (run (tryLoop sv arm target (defineOperationalSpace cs) (sortedIndices is)
      (posList h arm.movableNodes) sv.numMaxTry none) h) fun re => run (match re with
        | .error e => do
          match ← arm.setJointPositions (posList h arm.movableNodes) with
          | .error e' => return .error e'
          | .ok () => return .error e
        | .ok () => return .ok ()) := by
  unfold sortedIndices posList
  simp only [solveWithConstraints, solveInternal, run_bind, run_jointPositions h u arm wf,
    Res.bind_ok, if_neg (Nat.not_lt.2 le), if_neg (Nat.not_lt.2 en), run_ignoredIndices _ _ _ u, ni]
  congr 1
  funext a h'
  rcases a with e | ⟨⟩
  · simp only [run_bind]
    congr 1
    funext b h2
    rcases b with e' | ⟨⟩ <;> rfl
  · rfl

section converge
variable {sv : IkSolver ℝ} {arm : Chain} {target : Iso ℝ} {cs : Constraints} {h : KHeap ℝ}
    {jac : Mat ℝ} {ign : List Nat} {E : Iso ℝ} (l : Sliding h arm) (p : Posed sv arm target cs h jac ign E)

/-- the constrained part of the difference has been multiplied by `(1 - multiplier) ^ k` -/
structure Shrunk (sv : IkSolver ℝ) (arm : Chain) (target : Iso ℝ) (cs : Constraints) (h : KHeap ℝ)
    (E : Iso ℝ) (k : Nat) (g : KHeap ℝ) : Prop where
  moved : Moved arm.nodes h g
  diff : ∀ i : Nat, (defineOperationalSpace cs)[i]? = some true →
    (calcPoseDiff target (endPose g arm.nodes)).getD i 0 =
      (1 - sv.jacobianMultiplier) ^ k * (calcPoseDiff target E).getD i 0

include l p

theorem Posed.end_eq : E = endPose h arm.nodes := by
  have := p.pose
  rw [run_endTransform _ _ l.unlocked] at this
  injection this with a _
  exact a.symm

theorem Posed.start : Shrunk sv arm target cs h E 0 h :=
  ⟨.refl _ _, fun i _ => by rw [p.end_eq l]; simp⟩

/-- the solver computes the indices `ign` -/
theorem Posed.indices : ∃ is, nameIndices h arm.movableNodes cs.ignoredJointNames = .ok is ∧
    sortedIndices is = ign ∧ ign.length = cs.ignoredJointNames.length ∧ ∀ j ∈ ign, j < arm.dof :=
  ignored_indices l.wf p.names p.found p.sorted p.ignored

theorem Posed.branch : countTrue (defineOperationalSpace cs) ≤ arm.dof - ign.length ∧
    (ign = [] ∨ countTrue (defineOperationalSpace cs) < arm.dof - ign.length) ∧
    cs.ignoredJointNames.length ≤ arm.dof := by
  obtain ⟨is, -, -, len, -⟩ := p.indices l
  rw [len, (C30_count (T := ℝ) cs).1]
  have := p.constrained
  rcases p.enough with ⟨a, b⟩ | b
  · rw [a] at len ⊢
    exact ⟨by simpa using b, .inl (List.length_eq_zero_iff.1 len), Nat.zero_le _⟩
  · exact ⟨by omega, .inr b, by omega⟩

/-- the errors after `k` steps -/
theorem Posed.errors {k : Nat} {g : KHeap ℝ} (s : Shrunk sv arm target cs h E k g) :
    posError cs target (endPose g arm.nodes) =
      (posError cs target E).scale ((1 - sv.jacobianMultiplier) ^ k) ∧
    rotError cs target (endPose g arm.nodes) = V3.zero := by
  obtain ⟨jac', g0, e0, ang, -⟩ := l.jacobian
  obtain ⟨g1, e1⟩ := p.hasJac
  rw [e1] at e0; cases e0
  obtain ⟨d, -, -, sol⟩ := p.sol
  have z : ∀ i, 3 ≤ i → (defineOperationalSpace cs)[i]? = .some true →
      (calcPoseDiff target (endPose g arm.nodes)).getD i 0 = 0 := by
    intro i hi hc
    rw [s.diff i hc, ← sol i hc, ang i hi, mul_zero]
  constructor
  · have d0 := s.diff 0
    have d1 := s.diff 1
    have d2 := s.diff 2
    simp only [defineOperationalSpace, calcPoseDiff, List.getElem?_cons_zero, List.getElem?_cons_succ,
      List.getD_cons_zero, List.getD_cons_succ, Option.some.injEq] at d0 d1 d2
    ext <;> simp only [posError, masked, V3.scale] <;> split
    · rw [d0 ‹_›]; ring
    · exact (zero_mul _).symm
    · rw [d1 ‹_›]; ring
    · exact (zero_mul _).symm
    · rw [d2 ‹_›]; ring
    · exact (zero_mul _).symm
  · have d0 := z 3 (by omega)
    have d1 := z 4 (by omega)
    have d2 := z 5 (by omega)
    simp only [defineOperationalSpace, calcPoseDiff, List.getElem?_cons_zero, List.getElem?_cons_succ,
      List.getD_cons_zero, List.getD_cons_succ, Option.some.injEq] at d0 d1 d2
    ext <;> simp only [rotError, masked, V3.zero] <;> split
    · exact d0 ‹_›
    · rfl
    · exact d1 ‹_›
    · rfl
    · exact d2 ‹_›
    · rfl

theorem Posed.next {k : Nat} {g : KHeap ℝ} (s : Shrunk sv arm target cs h E k g) :
    ∃ g1, run (solveOneLoop sv arm target (defineOperationalSpace cs) ign) g =
        .ok (.ok (calcPoseDiffWithConstraints target (endPose g1 arm.nodes)
          (defineOperationalSpace cs))) g1 ∧
      Shrunk sv arm target cs h E (k + 1) g1 := by
  obtain ⟨jac', g0, e0, -, same⟩ := l.jacobian
  obtain ⟨g1, e1⟩ := p.hasJac
  rw [e1] at e0; cases e0
  obtain ⟨⟨g2, e2⟩, -⟩ := same g s.moved.sameBut
  obtain ⟨d, ld, zd, sol⟩ := p.sol
  obtain ⟨en, br, -⟩ := p.branch l
  obtain ⟨-, -, -, -, lt⟩ := p.indices l
  obtain ⟨g3, e3, m3, d3⟩ := (l.same s.moved.sameBut).step (sv := sv) (target := target) (cs := cs) e2 p.sorted lt
    p.able (by rw [(C30_count (T := ℝ) cs).1]; exact p.constrained) en br
    ⟨d.map ((1 - sv.jacobianMultiplier) ^ k * ·), by simpa using ld, fun j hj => by simp [zd j hj],
      fun i hi => by rw [rowSum_scale, sol i hi, s.diff i hi]⟩
  exact ⟨g3, e3, s.moved.trans m3, fun i hi => by rw [d3 i hi, s.diff i hi, pow_succ]; ring⟩

/-- whether the test is passed after `k` steps -/
theorem Posed.reached (ang : 0 < sv.allowableTargetAngle) {k : Nat} {g : KHeap ℝ}
    (s : Shrunk sv arm target cs h E k g) :
    let d := targetDiffToLenRotDiff (calcPoseDiffWithConstraints target (endPose g arm.nodes)
      (defineOperationalSpace cs)) (defineOperationalSpace cs)
    d = ((posError cs target E).scale ((1 - sv.jacobianMultiplier) ^ k), V3.zero) ∧
    (K.reached sv d.1 d.2 = true ↔
      (posError cs target E).norm * |1 - sv.jacobianMultiplier| ^ k < sv.allowableTargetDistance) := by
  intro d
  have e : d = ((posError cs target E).scale ((1 - sv.jacobianMultiplier) ^ k), V3.zero) := by
    obtain ⟨a, b⟩ := p.errors l s
    simp only [d]
    rw [C30_split, a, b]
  refine ⟨e, ?_⟩
  have n0 : (V3.zero : V3 ℝ).norm = 0 := by simp [V3.norm, V3.zero, Scalar.sqrt]
  rw [e]
  simp only [K.reached, V3.norm_scale, n0, Bool.and_eq_true, abs_pow]
  simp [Scalar.lt, ang]

theorem Posed.tryLoop_reached (ang : 0 < sv.allowableTargetAngle) (orig : List ℝ) (left k j : Nat)
    (last : Option (V3 ℝ × V3 ℝ)) {g : KHeap ℝ} (s : Shrunk sv arm target cs h E k g)
    (j1 : 1 ≤ j) (jl : j ≤ left)
    (hit : (posError cs target E).norm * |1 - sv.jacobianMultiplier| ^ (k + j) < sv.allowableTargetDistance)
    (miss : ∀ i, 1 ≤ i → i < j → ¬ (posError cs target E).norm * |1 - sv.jacobianMultiplier| ^ (k + i) <
      sv.allowableTargetDistance) :
    ∃ g', run (tryLoop sv arm target (defineOperationalSpace cs) ign orig left last) g = .ok (.ok ()) g' ∧
      Shrunk sv arm target cs h E (k + j) g' := by
  induction left generalizing k j last g with
  | zero => omega
  | succ left ih =>
    obtain ⟨g1, e1, s1⟩ := p.next l s
    obtain ⟨-, iff⟩ := p.reached l ang s1
    have l1 := l.same s1.moved.sameBut
    simp only [tryLoop, run_bind, e1, Res.bind_ok]
    by_cases j2 : j = 1
    · subst j2
      rw [if_pos (iff.2 hit)]
      have m := moved_clamp_chain (h' := g1) l.wf (posList g1 arm.movableNodes)
      refine ⟨clampAll (arm.movableNodes.zip (posList g1 arm.movableNodes)) g1, ?_, s1.moved.trans m, ?_⟩
      · rw [run_bind, run_jointPositions g1 l1.unlocked arm l1.wf, Res.bind_ok, run_bind,
          run_setJointPositionsClamped _ _ _ l1.unlocked]
        rfl
      · intro i hi
        rw [l1.clamp_self]
        exact s1.diff i hi
    · rw [if_neg (fun x => miss 1 (Nat.le_refl _) (by omega) (iff.1 x))]
      obtain ⟨g', e, s'⟩ := ih (k + 1) (j - 1) _ s1 (by omega) (by omega)
        (by rw [show k + 1 + (j - 1) = k + j by omega]; exact hit)
        (fun i i1 il => by rw [show k + 1 + i = k + (i + 1) by omega]; exact miss (i + 1) (by omega) (by omega))
      exact ⟨g', e, by rw [show k + 1 + (j - 1) = k + j by omega] at s'; exact s'⟩

theorem Posed.tryLoop_missed (ang : 0 < sv.allowableTargetAngle) (orig : List ℝ) (left k : Nat)
    (last : Option (V3 ℝ × V3 ℝ)) {g : KHeap ℝ} (s : Shrunk sv arm target cs h E k g)
    (miss : ∀ i, 1 ≤ i → i ≤ left → ¬ (posError cs target E).norm * |1 - sv.jacobianMultiplier| ^ (k + i) <
      sv.allowableTargetDistance) :
    ∃ g' last', run (tryLoop sv arm target (defineOperationalSpace cs) ign orig left last) g =
        run (tryLoop sv arm target (defineOperationalSpace cs) ign orig 0 last') g' ∧
      Shrunk sv arm target cs h E (k + left) g' ∧
      last' = if left = 0 then last else
        some ((posError cs target E).scale ((1 - sv.jacobianMultiplier) ^ (k + left)), V3.zero) := by
  induction left generalizing k last g with
  | zero => exact ⟨g, last, rfl, s, rfl⟩
  | succ left ih =>
    obtain ⟨g1, e1, s1⟩ := p.next l s
    obtain ⟨eq, iff⟩ := p.reached l ang s1
    obtain ⟨g', last', e, s', hl⟩ := ih (k + 1)
      (some (targetDiffToLenRotDiff (calcPoseDiffWithConstraints target (endPose g1 arm.nodes)
        (defineOperationalSpace cs)) (defineOperationalSpace cs))) s1
      (fun i i1 il => by rw [show k + 1 + i = k + (i + 1) by omega]; exact miss (i + 1) (by omega) (by omega))
    have step : run (tryLoop sv arm target (defineOperationalSpace cs) ign orig (left + 1) last) g =
        run (tryLoop sv arm target (defineOperationalSpace cs) ign orig left
          (some (targetDiffToLenRotDiff (calcPoseDiffWithConstraints target (endPose g1 arm.nodes)
            (defineOperationalSpace cs)) (defineOperationalSpace cs)))) g1 := by
      simp only [tryLoop, run_bind, e1, Res.bind_ok]
      rw [if_neg (fun x => miss 1 (Nat.le_refl _) (by omega) (iff.1 x))]
    have kk : k + 1 + left = k + (left + 1) := by omega
    rw [kk] at s' hl
    refine ⟨g', last', step.trans e, s', ?_⟩
    rw [hl, if_neg (Nat.succ_ne_zero left)]
    split
    · rename_i z
      subst z
      rw [eq]
    · rfl

/-- the call, up to the loop -/
theorem Posed.run : run (solveWithConstraints sv arm target cs) h =
    Res.bind (run (tryLoop sv arm target (defineOperationalSpace cs) ign
      (posList h arm.movableNodes) sv.numMaxTry none) h) fun re => run (match re with
        | .error e => do
          match ← arm.setJointPositions (posList h arm.movableNodes) with
          | .error e' => return .error e'
          | .ok () => return .error e
        | .ok () => return .ok ()) := by
  obtain ⟨is, ni, eq, len, lt⟩ := p.indices l
  obtain ⟨en, -, le⟩ := p.branch l
  rw [len] at en
  subst eq
  exact run_to_loop l.unlocked l.wf ni le en

/-- **C70, success.**  If the `k`-th try is the first for which the length of the constrained position
difference times `|1 - multiplier|^k` is below the tolerance, the solver returns `Ok`, with exactly
`(1 - multiplier)^k` of the constrained position difference left and no constrained rotation difference, and
has touched no node outside the arm. -/
theorem C70_converges (ang : 0 < sv.allowableTargetAngle) (k : Nat) (k1 : 1 ≤ k) (kl : k ≤ sv.numMaxTry)
    (hit : (posError cs target E).norm * |1 - sv.jacobianMultiplier| ^ k < sv.allowableTargetDistance)
    (miss : ∀ i, 1 ≤ i → i < k → ¬ (posError cs target E).norm * |1 - sv.jacobianMultiplier| ^ i <
      sv.allowableTargetDistance) :
    ∃ h' X, K.run (solveWithConstraints sv arm target cs) h = .ok (.ok ()) h' ∧
      K.run arm.endTransform h' = .ok X h' ∧
      posError cs target X = (posError cs target E).scale ((1 - sv.jacobianMultiplier) ^ k) ∧
      rotError cs target X = V3.zero ∧ ∀ n, n ∉ arm.nodes → h'.get n = h.get n := by
  obtain ⟨h', e, s⟩ := p.tryLoop_reached l ang (posList h arm.movableNodes) sv.numMaxTry 0 k none (p.start l)
    k1 kl (by simpa using hit) (by simpa using miss)
  rw [Nat.zero_add] at s
  refine ⟨h', _, ?_, run_endTransform _ _ (s.moved.unlocked l.unlocked), (p.errors l s).1, (p.errors l s).2,
    s.moved.outside⟩
  rw [p.run l, e]; rfl

/-- **C70, failure.**  If no try gets there, the solver returns `NotConverged` with the number of tries and what
is left of the difference, and the joints are back where they were (if the arm can be set back at all). -/
theorem C70_fails (ang : 0 < sv.allowableTargetAngle) (tries : 0 < sv.numMaxTry)
    (miss : ∀ i, 1 ≤ i → i ≤ sv.numMaxTry →
      ¬ (posError cs target E).norm * |1 - sv.jacobianMultiplier| ^ i < sv.allowableTargetDistance)
    (ol : OneLevel h) (re : Restorable h arm) :
    ∃ h', K.run (solveWithConstraints sv arm target cs) h = .ok (.error (.notConverged sv.numMaxTry
        ((posError cs target E).scale ((1 - sv.jacobianMultiplier) ^ sv.numMaxTry)) V3.zero)) h' ∧
      SameBut h h' ∧ ∀ k, posOf h' k = posOf h k := by
  obtain ⟨g, last, e, s, el⟩ := p.tryLoop_missed l ang (posList h arm.movableNodes) sv.numMaxTry 0 none
    (p.start l) (by simpa using miss)
  rw [if_neg (by omega), Nat.zero_add] at el
  obtain ⟨h2, r2, sb2, pos2⟩ := restore l.unlocked ol l.wf l.nodup re s.moved.disturbed
  obtain ⟨h3, r3, sb3, pos3⟩ := restore l.unlocked ol l.wf l.nodup re ⟨sb2, fun k _ => pos2 k⟩
  refine ⟨h3, ?_, sb3, pos3⟩
  rw [p.run l, e, el]
  simp only [tryLoop, run_bind, r2, Res.bind_ok, run_expect_some, run_pure, r3]

/-- **C70.**  The solver returns `Ok` if and only if the length of the constrained position difference times
`|1 - multiplier|^k` is below the tolerance for some `k` from 1 to the number of tries. -/
theorem C70_iff (ang : 0 < sv.allowableTargetAngle) :
    (∃ h', K.run (solveWithConstraints sv arm target cs) h = .ok (.ok ()) h') ↔
      ∃ k, 1 ≤ k ∧ k ≤ sv.numMaxTry ∧
        (posError cs target E).norm * |1 - sv.jacobianMultiplier| ^ k < sv.allowableTargetDistance := by
  constructor
  · rintro ⟨h', e⟩
    by_contra no
    push Not at no
    obtain ⟨g, last, e', s, el⟩ := p.tryLoop_missed l ang (posList h arm.movableNodes) sv.numMaxTry 0 none
      (p.start l) (by simpa using no)
    rw [p.run l, e'] at e
    obtain ⟨r1, h1, e1, e2⟩ := Res.bind_eq_ok e
    have : ∃ x, r1 = .error x := by
      simp only [tryLoop, run_bind] at e1
      obtain ⟨r2, h2, e3, e4⟩ := Res.bind_eq_ok e1
      cases r2 with
      | error x => cases e4; exact ⟨_, rfl⟩
      | ok v =>
        simp only [run_bind] at e4
        obtain ⟨d, h3, e5, e6⟩ := Res.bind_eq_ok e4
        cases e6; exact ⟨_, rfl⟩
    obtain ⟨x, rfl⟩ := this
    simp only [run_bind] at e2
    obtain ⟨r2, h2, e3, e4⟩ := Res.bind_eq_ok e2
    cases r2 <;> cases e4
  · rintro ⟨k, k1, kl, hit⟩
    classical
    have ex : ∃ k, 1 ≤ k ∧ (posError cs target E).norm * |1 - sv.jacobianMultiplier| ^ k <
      sv.allowableTargetDistance := ⟨k, k1, hit⟩
    obtain ⟨h', X, e, -⟩ := C70_converges l p ang (Nat.find ex) (Nat.find_spec ex).1
      (Nat.le_trans (Nat.find_min' ex ⟨k1, hit⟩) kl) (Nat.find_spec ex).2
      (fun i i1 il x => Nat.find_min ex il ⟨i1, x⟩)
    exact ⟨h', e⟩

/-- **C70, enough tries.**  With a multiplier strictly between 0 and 2 and positive tolerances there is a number
of tries from which on the solver always succeeds. -/
theorem C70_enough_tries (ang : 0 < sv.allowableTargetAngle) (dist : 0 < sv.allowableTargetDistance)
    (m0 : 0 < sv.jacobianMultiplier) (m2 : sv.jacobianMultiplier < 2) :
    ∃ N, ∀ n, N ≤ n → ∃ h',
      K.run (solveWithConstraints { sv with numMaxTry := n } arm target cs) h = .ok (.ok ()) h' := by
  have lt : |1 - sv.jacobianMultiplier| < 1 := by rw [abs_lt]; constructor <;> linarith
  have := (tendsto_pow_atTop_nhds_zero_of_lt_one (abs_nonneg _) lt).const_mul (posError cs target E).norm
  rw [mul_zero] at this
  obtain ⟨N, hN⟩ := (this.eventually (gt_mem_nhds dist)).exists_forall_of_atTop
  refine ⟨N + 1, fun n hn => ?_⟩
  have p' : Posed { sv with numMaxTry := n } arm target cs h jac ign E :=
    ⟨p.pose, p.hasJac, p.names, p.found, p.sorted, p.ignored, ⟨p.able.1, p.able.2, p.able.3⟩,
      p.constrained, p.enough, p.sol⟩
  exact (C70_iff l p' ang).2 ⟨n, by omega, Nat.le_refl _, hN n (by omega)⟩

/-- **C70, divergence.**  With a multiplier that is not strictly between 0 and 2 the solver fails for every
number of tries unless the target is within the tolerance from the start. -/
theorem C70_bad_multiplier (ang : 0 < sv.allowableTargetAngle)
    (m : sv.jacobianMultiplier ≤ 0 ∨ 2 ≤ sv.jacobianMultiplier)
    (far : sv.allowableTargetDistance ≤ (posError cs target E).norm) (h' : KHeap ℝ) :
    K.run (solveWithConstraints sv arm target cs) h ≠ .ok (.ok ()) h' := by
  intro e
  obtain ⟨k, -, -, hit⟩ := (C70_iff l p ang).1 ⟨h', e⟩
  have one : 1 ≤ |1 - sv.jacobianMultiplier| := by
    rw [le_abs]
    rcases m with m | m
    · exact .inl (by linarith)
    · exact .inr (by linarith)
  have := mul_le_mul_of_nonneg_left (one_le_pow₀ (n := k) one) (V3.norm_nonneg' (posError cs target E))
  linarith

end converge

/-- **C70, the default solver** (tolerance 0.001, multiplier 0.5, 10 tries): it returns `Ok` if and only if the
target is less than 1.024 away. -/
theorem C70_default {la : LinAlg ℝ} {arm : Chain} {target : Iso ℝ} {cs : Constraints} {h : KHeap ℝ}
    {jac : Mat ℝ} {ign : List Nat} {E : Iso ℝ} (l : Sliding h arm)
    (p : Posed (IkSolver.default la) arm target cs h jac ign E) :
    (∃ h', run (solveWithConstraints (IkSolver.default la) arm target cs) h = .ok (.ok ()) h') ↔
      (posError cs target E).norm < 1.024 := by
  have e1 : (IkSolver.default la).allowableTargetDistance = 1 / 1000 := by
    simp [IkSolver.default, IkSolver.new, Scalar.lit]
  have e2 : (IkSolver.default la).allowableTargetAngle = 5 / 1000 := by
    simp [IkSolver.default, IkSolver.new, Scalar.lit]
  have e3 : (IkSolver.default la).jacobianMultiplier = 1 / 2 := by
    simp [IkSolver.default, IkSolver.new, Scalar.lit]
  have e4 : (IkSolver.default la).numMaxTry = 10 := rfl
  rw [C70_iff l p (by rw [e2]; norm_num), e1, e3, e4]
  have hh : |(1 : ℝ) - 1 / 2| = 1 / 2 := by rw [abs_of_pos] <;> norm_num
  rw [hh]
  constructor
  · rintro ⟨k, -, kl, hit⟩
    have : (1 / 2 : ℝ) ^ 10 ≤ (1 / 2) ^ k := pow_le_pow_of_le_one (by norm_num) (by norm_num) kl
    have := mul_le_mul_of_nonneg_left this (V3.norm_nonneg' (posError cs target E))
    norm_num at this hit ⊢
    linarith
  · intro lt
    refine ⟨10, by omega, Nat.le_refl _, ?_⟩
    norm_num at lt ⊢
    linarith

/-! The two sliders of `IkEx` are such an arm. -/

theorem rail_sliding (p0 p1 : ℝ) : Sliding (rail none none p0 p1) arm2 where
  unlocked := rail_unlocked _ _ _ _
  wf := (rail_sliders none none p0 p1).wf2
  root := ⟨0, [1], rfl, by simp [liveParent, rail, NodeImpl.fresh]⟩
  serial := by
    intro pre a b post e
    match pre, e with
    | [], e => cases e; simp [liveParent, rail]
    | [x], e => simp [arm2] at e
    | x :: y :: pre, e => simp [arm2] at e
  nodup := by simp [arm2]
  rigid := by
    intro n hn
    have : n = 0 ∨ n = 1 := by simpa [arm2] using hn
    obtain ⟨x, y⟩ := rail_sliders none none p0 p1 n this
    unfold Joint.IsRigid
    rw [x, y]
    exact ⟨by simp [Iso.IsRigid, Iso.one, Quat.one_isUnit], by simp [V3.IsUnit]⟩
  slides := by
    intro n hn a
    have : n = 0 ∨ n = 1 := by simpa [arm2] using hn
    rw [(rail_sliders none none p0 p1 n this).1]; simp
  free := by
    intro n hn
    have : n = 0 ∨ n = 1 := by simpa [arm2] using hn
    rcases this with rfl | rfl <;> simp [rail, slider, NodeImpl.fresh, Joint.new]

/-- the default solver with the pseudoinverse of a row of two entries -/
theorem rail_posed (x p0 p1 : ℝ) : Posed (IkSolver.default halfSolver.la) arm2 (atX x) (onlyX [])
    (rail none none p0 p1) [[1, 0, 0, 0, 0, 0], [1, 0, 0, 0, 0, 0]] [] (atX (p0 + p1)) where
  pose := by
    rw [run_endTransform _ _ (rail_unlocked _ _ _ _), (rail_sliders none none p0 p1).pose2]
    simp [rail, slider, NodeImpl.fresh, Joint.new]
  hasJac := rail_jacobian ..
  names := .nil
  found := by simp [onlyX]
  sorted := .nil
  ignored := by simp [onlyX]
  able := by
    have hr : reducedJac (defineOperationalSpace (onlyX [])) []
        [[1, 0, 0, 0, 0, 0], [1, 0, 0, 0, 0, 0]] = [[1], [1]] := by
      simp [reducedJac, defineOperationalSpace, onlyX, selectFlags, dropIdx, List.zipIdx]
    refine ⟨?_, ?_, ?_⟩
    · rw [hr]; exact halfSolver_solves
    · intro e; simp [onlyX_count, arm2] at e
    · intro f e; cases e
  constrained := by decide
  enough := .inl ⟨rfl, by decide⟩
  sol := ⟨[(x - (p0 + p1)) / 2, (x - (p0 + p1)) / 2], rfl, by simp, fun i hi => by
      match i, hi with
      | 0, _ => simp [rowSum, calcPoseDiff, atX, V3.sub]
      | 1, hi => cases hi
      | 2, hi => cases hi
      | 3, hi => cases hi
      | 4, hi => cases hi
      | 5, hi => cases hi
      | n + 6, hi => simp [defineOperationalSpace, onlyX] at hi⟩

theorem rail_far (x p : ℝ) : (posError (onlyX []) (atX x) (atX p)).norm = |x - p| := by
  simp [posError, masked, onlyX, atX, V3.norm, V3.sub, Scalar.sqrt, Real.sqrt_mul_self_eq_abs]

/-- the default solver reaches a target 1 away and not a target 2 away -/
example : (∃ h', run (solveWithConstraints (IkSolver.default halfSolver.la) arm2 (atX 1) (onlyX []))
      (rail none none 0 0) = .ok (.ok ()) h') ∧
    ¬ ∃ h', run (solveWithConstraints (IkSolver.default halfSolver.la) arm2 (atX 2) (onlyX []))
      (rail none none 0 0) = .ok (.ok ()) h' := by
  constructor
  · rw [C70_default (rail_sliding 0 0) (rail_posed 1 0 0), rail_far]; norm_num
  · rw [C70_default (rail_sliding 0 0) (rail_posed 2 0 0), rail_far]; norm_num

/-- 2 away, it gives up with 2/1024 left and puts the joints back -/
example : ∃ h', run (solveWithConstraints (IkSolver.default halfSolver.la) arm2 (atX 2) (onlyX []))
      (rail none none 0 0) = .ok (.error (.notConverged 10 ⟨2 / 1024, 0, 0⟩ V3.zero)) h' ∧
    ∀ k, posOf h' k = posOf (rail none none 0 0) k := by
  have nm : ∀ k, ((rail none none 0 0).get k).mimicParent = none ∧
      ((rail none none 0 0).get k).mimicChildren = [] := by
    intro k
    by_cases a : k = 0
    · subst a; simp [rail, NodeImpl.fresh, slider]
    · by_cases b : k = 1
      · subst b; simp [rail, NodeImpl.fresh, slider]
      · simp [rail, NodeImpl.fresh, a, b]
  have e1 : (IkSolver.default halfSolver.la).allowableTargetDistance = 1 / 1000 := by
    simp [IkSolver.default, IkSolver.new, Scalar.lit]
  have e2 : (IkSolver.default halfSolver.la).allowableTargetAngle = 5 / 1000 := by
    simp [IkSolver.default, IkSolver.new, Scalar.lit]
  have e3 : (IkSolver.default halfSolver.la).jacobianMultiplier = 1 / 2 := by
    simp [IkSolver.default, IkSolver.new, Scalar.lit]
  have e4 : (IkSolver.default halfSolver.la).numMaxTry = 10 := rfl
  obtain ⟨h', e, -, pos⟩ := C70_fails (rail_sliding 0 0) (rail_posed 2 0 0) (by rw [e2]; norm_num) (by decide)
    (fun i _ il => by
      rw [e4] at il
      rw [rail_far, e1, e3, abs_of_pos (show (0 : ℝ) < 1 - 1 / 2 by norm_num), not_lt]
      have : (1 / 2 : ℝ) ^ 10 ≤ (1 / 2) ^ i := pow_le_pow_of_le_one (by norm_num) (by norm_num) il
      norm_num at this ⊢
      linarith)
    (fun m k hk => by rw [(nm m).2] at hk; cases hk)
    ⟨fun n hn _ r hr => (by rw [(rail_sliding 0 0).free n hn] at hr; cases hr),
      fun n _ _ k hk => (by rw [(nm n).2] at hk; cases hk),
      fun n _ m hm => (by rw [(nm n).1] at hm; cases hm)⟩
  refine ⟨h', ?_, pos⟩
  rw [e, e3, e4]
  simp [posError, masked, onlyX, atX, V3.scale, V3.sub]
  norm_num

end
end K
