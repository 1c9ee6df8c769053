import Verif.Props.Fk
import Verif.Model.Funcs
import Mathlib.Tactic.Linarith
/-!
# C23: center of mass
-/

namespace K
open Prog

noncomputable section

/-- mass of a node: that of its link, if any -/
def massOf (h : KHeap ℝ) (n : NodeId) : ℝ :=
  match (h.get n).link with
  | some l => l.inertial.mass
  | none => 0

/-- mass times world position of the inertial origin of the link of node `n`, whose pose is `X` -/
def momentOf (h : KHeap ℝ) (n : NodeId) (X : Iso ℝ) : V3 ℝ :=
  match (h.get n).link with
  | some l => (X.apply l.inertial.origin.trans).scale l.inertial.mass
  | none => V3.zero

/-- total mass -/
def totalMass (h : KHeap ℝ) (ns : List NodeId) : ℝ := (ns.map (massOf h)).sum

/-- sum of the moments of nodes `ns` with poses `Xs` -/
def totalMoment (h : KHeap ℝ) : List NodeId → List (Iso ℝ) → V3 ℝ
  | n :: ns, X :: Xs => (momentOf h n X).add (totalMoment h ns Xs)
  | _, _ => V3.zero

theorem run_comLoop (h h' : KHeap ℝ) (u : h'.Unlocked) (ns : List NodeId) (Xs : List (Iso ℝ))
    (lk : ∀ n, (h'.get n).link = (h.get n).link)
    (c : List.Forall₂ (fun n X => (h'.get n).joint.worldTransformCache = some X) ns Xs)
    (acc : ComAcc ℝ) :
    run (comLoop ns acc) h' = .ok ⟨acc.totalMass + totalMass h ns,
      acc.com.add (totalMoment h ns Xs)⟩ h' := by
  induction c generalizing acc with
  | nil =>
    have : (⟨acc.totalMass + totalMass h [], acc.com.add (totalMoment h [] [])⟩ : ComAcc ℝ) = acc := by
      simp [totalMass, totalMoment, V3.add_zero']
    rw [this]
    rfl
  | @cons n X ns Xs e _ ih =>
    simp only [comLoop, run_bind, run_Node_worldTransform n h' (u n), Joint.worldTransform, e,
      Res.bind_ok, run_Node_link n h' (u n), ih]
    congr 1
    rw [lk n]
    cases l : (h.get n).link with
    | none =>
      simp [comAdd, totalMass, massOf, totalMoment, momentOf, l, V3.zero_add']
    | some l' =>
      simp only [comAdd, totalMass, massOf, totalMoment, momentOf, l, List.map_cons, List.sum_cons,
        V3.add_assoc', Iso.mulTrans, Iso.apply, _root_.add_assoc]

/-- **C23.**  For a chain that lists every node after its parent, `center_of_mass` returns, changes at
most cached transforms, and, if the total mass is not zero, its result times the total mass is the sum
over the nodes with a link of mass times world position of the origin of the link's inertial. -/
theorem C23_center_of_mass (h : KHeap ℝ) (u : h.Unlocked) (c : Chain) (pa : ParentsAhead h c.nodes) :
    ∃ Xs v h', List.Forall₂ (World h) c.nodes Xs ∧ run (centerOfMass c) h = .ok v h' ∧
      OnlyWorld c.nodes h h' ∧
      (totalMass h c.nodes ≠ 0 → v.scale (totalMass h c.nodes) = totalMoment h c.nodes Xs) := by
  obtain ⟨Xs, h', e, w, cache, ow, -⟩ := C12_update_transforms h u c pa
  have cs : List.Forall₂ (fun n X => (h'.get n).joint.worldTransformCache = some X) c.nodes Xs := by
    have : ∀ (ns : List NodeId) (Xs : List (Iso ℝ)), (∀ n ∈ ns, n ∈ c.nodes) →
        List.Forall₂ (World h) ns Xs →
        List.Forall₂ (fun n X => (h'.get n).joint.worldTransformCache = some X) ns Xs := by
      intro ns Xs hs w
      induction w with
      | nil => exact .nil
      | @cons n X ns Xs wn _ ih =>
        refine .cons ?_ (ih fun m hm => hs m (by simp [hm]))
        obtain ⟨Y, wy, ey⟩ := cache n (hs n (by simp))
        rw [run_Node_worldTransform n h' (ow.unlocked u n)] at ey
        rw [wn.unique wy]
        cases hx : (h'.get n).joint.worldTransform with
        | none => rw [hx] at ey; cases ey
        | some Z => rw [hx] at ey; cases ey; exact hx
    exact this _ _ (fun _ h => h) w
  refine ⟨Xs, (totalMoment h c.nodes Xs).unscale (totalMass h c.nodes), h', w, ?_, ow, fun m => ?_⟩
  · simp only [centerOfMass, run_bind, e, Res.bind_ok,
      run_comLoop h h' (ow.unlocked u) c.nodes Xs (fun n => (ow.same n).link) cs, run_pure,
      V3.zero_add', zero_add]
  · ext <;> simp only [V3.scale, V3.unscale] <;> exact div_mul_cancel₀ _ m

private theorem dot_totalMoment_le (h : KHeap ℝ) (a : V3 ℝ) (b : ℝ) (ns : List NodeId) (Xs : List (Iso ℝ))
    (f : List.Forall₂ (fun n X => a.dot (momentOf h n X) ≤ b * massOf h n) ns Xs) :
    a.dot (totalMoment h ns Xs) ≤ b * totalMass h ns := by
  induction f with
  | nil => simp [totalMoment, totalMass, V3.dot, V3.zero]
  | @cons n X ns Xs e _ ih =>
    simp only [totalMass, List.map_cons, List.sum_cons, totalMoment] at *
    simp only [V3.dot, V3.add] at *
    linarith

/-- **C23**, convexity: if no mass is negative and their sum is positive, the center of mass lies in every closed
half-space that contains the centers of mass of all links with mass; so it lies in their convex hull. -/
theorem C23_half_space (h : KHeap ℝ) (u : h.Unlocked) (c : Chain) (pa : ParentsAhead h c.nodes)
    (nonneg : ∀ n ∈ c.nodes, ∀ l, (h.get n).link = some l → 0 ≤ l.inertial.mass)
    (pos : 0 < totalMass h c.nodes) (a : V3 ℝ) (b : ℝ)
    (inside : ∀ n ∈ c.nodes, ∀ X, World h n X → ∀ l, (h.get n).link = some l → 0 < l.inertial.mass →
      a.dot (X.apply l.inertial.origin.trans) ≤ b) :
    ∃ v h', run (centerOfMass c) h = .ok v h' ∧ a.dot v ≤ b := by
  obtain ⟨Xs, v, h', w, e, -, m⟩ := C23_center_of_mass h u c pa
  refine ⟨v, h', e, ?_⟩
  have k := m pos.ne'
  have f : List.Forall₂ (fun n X => a.dot (momentOf h n X) ≤ b * massOf h n) c.nodes Xs := by
    have : ∀ (ns : List NodeId) (Xs : List (Iso ℝ)), (∀ n ∈ ns, n ∈ c.nodes) → List.Forall₂ (World h) ns Xs →
        List.Forall₂ (fun n X => a.dot (momentOf h n X) ≤ b * massOf h n) ns Xs := by
      intro ns Xs hs w
      induction w with
      | nil => exact .nil
      | @cons n X ns Xs wn _ ih =>
        refine .cons ?_ (ih fun m hm => hs m (by simp [hm]))
        cases hl : (h.get n).link with
        | none => simp [momentOf, massOf, hl, V3.dot, V3.zero]
        | some l =>
          have n0 := nonneg n (hs n (by simp)) l hl
          have i := inside n (hs n (by simp)) X wn l hl
          simp only [momentOf, massOf, hl, V3.dot, V3.scale] at *
          rcases n0.eq_or_lt with z | p
          · rw [← z]; simp
          · have := mul_le_mul_of_nonneg_right (i p) p.le
            linarith
    exact this _ _ (fun _ h => h) w
  have t := dot_totalMoment_le h a b _ _ f
  rw [← k] at t
  have : a.dot v * totalMass h c.nodes ≤ b * totalMass h c.nodes := by
    simp only [V3.dot, V3.scale] at *
    linarith
  exact le_of_mul_le_mul_right this pos

theorem totalMoment_moved (h : KHeap ℝ) (X : Iso ℝ) (hX : X.IsRigid) (ns : List NodeId)
    (Xs : List (Iso ℝ)) (l : ns.length = Xs.length) (hs : ∀ Y ∈ Xs, Y.IsRigid) :
    totalMoment h ns (Xs.map X.mul) =
      (X.trans.scale (totalMass h ns)).add (X.rot.rotate (totalMoment h ns Xs)) := by
  induction ns generalizing Xs with
  | nil =>
    have : Xs = [] := List.length_eq_zero_iff.1 (by simpa using l.symm)
    subst this
    simp only [totalMoment, totalMass, List.map_nil, List.sum_nil, Quat.rotate_zero, V3.add_zero']
    ext <;> simp [V3.scale, V3.zero]
  | cons n ns ih =>
    cases Xs with
    | nil => simp at l
    | cons Y Xs =>
      have := ih Xs (by simpa using l) fun Z hZ => hs Z (by simp [hZ])
      simp only [List.map_cons, totalMoment, this, Quat.rotate_add]
      have hm : momentOf h n (X.mul Y) =
          (X.trans.scale (massOf h n)).add (X.rot.rotate (momentOf h n Y)) := by
        unfold momentOf massOf
        cases (h.get n).link with
        | none =>
          simp only [Quat.rotate_zero, V3.add_zero']
          ext <;> simp [V3.scale, V3.zero]
        | some l =>
          simp only [Iso.apply_mul hX (hs Y (by simp)), Quat.rotate_scale]
          simp only [Iso.apply]
          ext <;> simp only [V3.add, V3.scale] <;> ring
      rw [hm]
      have : totalMass h (n :: ns) = massOf h n + totalMass h ns := by simp [totalMass]
      rw [this]
      ext <;> simp only [V3.add, V3.scale] <;> ring

/-- **C23**, motion: for a chain whose nodes all hang below its first node, a real root, with total mass
not zero, composing the chain's origin with a rigid motion `X` on the left moves the center of mass by
`X`; for a translation it moves by that translation. -/
theorem C23_moving_the_origin (h : KHeap ℝ) (u : h.Unlocked) (c : Chain) (r : NodeId)
    (rest : List NodeId) (hc : c.nodes = r :: rest) (pa : ParentsAhead h c.nodes)
    (only : ∀ n ∈ c.nodes, liveParent h n = none → n = r) (ar : AllRigid h c.nodes) (X : Iso ℝ)
    (hX : X.IsRigid) (mass : totalMass h c.nodes ≠ 0) :
    ∃ h' v g v' g', run (do c.setOrigin (X.mul (← c.origin))) h = .ok () h' ∧
      run (centerOfMass c) h = .ok v g ∧ run (centerOfMass c) h' = .ok v' g' ∧
      v' = X.apply v ∧ (X.rot = Quat.one → v' = X.trans.add v) := by
  obtain ⟨Xs, v, g, w, e, -, m⟩ := C23_center_of_mass h u c pa
  obtain ⟨h', Xs', g1, Ys, g1', eo, e1, e2, hY⟩ := C46_moving_the_origin h u c r rest hc pa only ar X hX
  let h1 := h.modify r fun s => { s with joint := s.joint.setOrigin (X.mul (h.get r).joint.origin) }
  have er : run (do c.setOrigin (X.mul (← c.origin))) h = .ok () h1 := by
    simp only [Chain.origin, Chain.setOrigin, hc, run_bind, run_Node_origin _ _ (u r), Res.bind_ok,
      run_Node_setOrigin _ _ _ u]
    rfl
  have : h' = h1 := by
    have := eo.symm.trans er
    injection this
  subst this
  have lp : ∀ n, liveParent h1 n = liveParent h n := by
    intro n; unfold liveParent
    have : (h1.get n).parent = (h.get n).parent := by
      simp only [h1, Heap.get_modify]; split <;> rfl
    rw [this]; rfl
  have lk : ∀ n, (h1.get n).link = (h.get n).link := by
    intro n; simp only [h1, Heap.get_modify]; split <;> rfl
  have pa' : ParentsAhead h1 c.nodes := fun pre n post e => by rw [lp]; exact pa pre n post e
  obtain ⟨Ys', v', g', w', e', -, m'⟩ := C23_center_of_mass h1 (u.modify _ _) c pa'
  obtain ⟨Zs, g2, e3, w3, -⟩ := C12_update_transforms h u c pa
  rw [e1] at e3; cases e3
  obtain ⟨Zs', g3, e4, w4, -⟩ := C12_update_transforms h1 (u.modify _ _) c pa'
  rw [e2] at e4; cases e4
  have q1 : Xs = Xs' := forall₂_unique (R := World h) (fun _ _ _ a b => World.unique a b) w w3
  have q2 : Ys' = Ys := forall₂_unique (R := World h1) (fun _ _ _ a b => World.unique a b) w' w4
  subst q1 q2
  have mo : ∀ n, massOf h1 n = massOf h n := fun n => by unfold massOf; rw [lk]
  have mm : totalMass h1 c.nodes = totalMass h c.nodes := by
    unfold totalMass; rw [List.map_congr_left fun n _ => mo n]
  have tm : ∀ (ns : List NodeId) (Zs : List (Iso ℝ)), totalMoment h1 ns Zs = totalMoment h ns Zs := by
    intro ns
    induction ns with
    | nil => intro Zs; rfl
    | cons n ns ih =>
      intro Zs
      cases Zs with
      | nil => rfl
      | cons Z Zs =>
        simp only [totalMoment, ih]
        unfold momentOf
        rw [lk]
  have rg : ∀ Y ∈ Xs, Y.IsRigid := fun Y hY => (C14_rigid h g1 u c pa ar Xs e1 Y hY).1
  have k := m' (by rw [mm]; exact mass)
  rw [mm, tm, hY, totalMoment_moved h X hX _ _ w.length_eq rg, ← m mass] at k
  have mass' : totalMass h c.nodes ≠ 0 := mass
  have fin : v' = X.apply v := by
    rw [Quat.rotate_scale] at k
    have kx := congrArg V3.x k
    have ky := congrArg V3.y k
    have kz := congrArg V3.z k
    simp only [V3.scale, V3.add, ← add_mul] at kx ky kz
    ext
    · exact mul_right_cancel₀ mass' kx
    · exact mul_right_cancel₀ mass' ky
    · exact mul_right_cancel₀ mass' kz
  refine ⟨h1, v, g, v', g', er, e, e', fin, fun one => ?_⟩
  rw [fin, Iso.apply, one, Quat.rotate_one]

/-! ## instance -/

/-- the tree `exTree` with a link of mass 1 at node 0 and one of mass 3, its inertial at (0, 0, 4), at
node 1 -/
def exCom : KHeap ℝ :=
  (exTree.modify 0 fun s => { s with link := some { Link.default with
      inertial := { Link.default.inertial with mass := 1 } } }).modify 1
    fun s => { s with link := some { Link.default with
      inertial := { Link.default.inertial with mass := 3, origin := ⟨⟨0, 0, 4⟩, Quat.one⟩ } } }

theorem exCom_parent (n : NodeId) : liveParent exCom n = liveParent exTree n := by
  unfold liveParent
  have : (exCom.get n).parent = (exTree.get n).parent := by
    simp only [exCom, Heap.get_modify]; split <;> [split; split] <;> rfl
  rw [this]; rfl

theorem exCom_local (n : NodeId) : (exCom.get n).joint.localTransform = Iso.one := by
  have h1 : (exCom.get n).joint = (exTree.get n).joint := by
    simp only [exCom, Heap.get_modify]; split <;> [split; split] <;> rfl
  have h2 : (exTree.get n).joint = Joint.new "j" (.rotational ⟨0, 1, 0⟩) := by
    simp only [exTree]
    split
    · rfl
    · split
      · rfl
      · split
        · rfl
        · split <;> rfl
  rw [h1, h2]
  show Iso.one.mul ⟨V3.zero, Quat.fromAxisAngle ⟨0, 1, 0⟩ 0⟩ = _
  rw [Iso.one_mul']
  simp [Iso.one, Quat.fromAxisAngle, Quat.one, Scalar.cos, Scalar.sin]

theorem exCom_world {n : NodeId} {X : Iso ℝ} (w : World exCom n X) : X = Iso.one := by
  induction w with
  | root e => rw [exCom_local, Iso.one_mul']
  | step e _ ih => rw [exCom_local, ih, Iso.one_mul']

/-- the center of mass of this tree is (0, 0, 3) -/
theorem exCom_com : ∃ g, run (centerOfMass exTreeChain) exCom = .ok ⟨0, 0, 3⟩ g := by
  have tm : totalMass exCom [0, 2, 1, 3] = 4 := by
    simp [totalMass, massOf, exCom, Heap.get_modify, exTree, NodeImpl.fresh]
    norm_num
  obtain ⟨Xs, v, g, w, e, -, m⟩ := C23_center_of_mass exCom (fun _ => rfl) exTreeChain
    (fun pre n post e => by simp only [exCom_parent]; exact exTree_parentsAhead pre n post e)
  have m' := m (by show totalMass exCom [0, 2, 1, 3] ≠ 0; rw [tm]; norm_num)
  rw [show totalMass exCom exTreeChain.nodes = 4 from tm] at m'
  have all : ∀ X ∈ Xs, X = Iso.one := by
    clear m m' e
    generalize exTreeChain.nodes = ns at w
    induction w with
    | nil => simp
    | cons a _ ih =>
      intro X hX
      rcases List.mem_cons.1 hX with rfl | hX
      · exact exCom_world a
      · exact ih X hX
  have hXs : Xs = [Iso.one, Iso.one, Iso.one, Iso.one] := by
    have l := w.length_eq
    exact List.eq_replicate_iff.2 ⟨l.symm, all⟩
  rw [hXs] at m'
  refine ⟨g, ?_⟩
  rw [e]
  congr 1
  have hx := congrArg V3.x m'
  have hy := congrArg V3.y m'
  have hz := congrArg V3.z m'
  simp [exTreeChain, totalMoment, momentOf, exCom, Heap.get_modify, exTree, NodeImpl.fresh, Iso.apply_one,
    V3.scale, V3.add, V3.zero, Link.default, Inertial.new] at hx hy hz
  have o : (Iso.one : Iso ℝ).trans = ⟨0, 0, 0⟩ := rfl
  simp [o] at hx hy hz
  ext
  · exact hx
  · exact hy
  · show v.z = 3; linarith

/-- it is not higher than the higher of the two masses (`C23_half_space`) -/
example : ∃ v g, run (centerOfMass exTreeChain) exCom = .ok v g ∧ (⟨0, 0, 1⟩ : V3 ℝ).dot v ≤ 4 := by
  have hl : ∀ n l, (exCom.get n).link = some l → (l.inertial.mass = 1 ∨ l.inertial.mass = 3) ∧
      l.inertial.origin.trans.z ≤ 4 := by
    intro n l e
    simp only [exCom, Heap.get_modify] at e
    split at e
    · cases e; exact ⟨.inr rfl, le_refl _⟩
    · split at e
      · cases e; exact ⟨.inl rfl, by simp [Link.default, Inertial.new, Iso.one, V3.zero]⟩
      · simp only [exTree] at e
        split at e
        · cases e
        · split at e
          · cases e
          · split at e
            · cases e
            · cases e
  refine C23_half_space exCom (fun _ => rfl) exTreeChain
    (fun pre n post e => by simp only [exCom_parent]; exact exTree_parentsAhead pre n post e)
    (fun n _ l e => ?_) ?_ _ _ fun n _ X w l e _ => ?_
  · rcases (hl n l e).1 with e | e <;> rw [e] <;> norm_num
  · show 0 < totalMass exCom [0, 2, 1, 3]
    simp [totalMass, massOf, exCom, Heap.get_modify, exTree, NodeImpl.fresh]
    norm_num
  · rw [exCom_world w, Iso.apply_one]
    simpa [V3.dot] using (hl n l e).2

end
end K
