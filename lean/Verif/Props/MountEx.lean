import Verif.Props.Mount
/-!
# C101, a concrete case: a third link mounted on a planar arm
-/

namespace K
open Prog

noncomputable section

/-- the planar arm and beside it a link of length one that turns about z -/
def planarBeside (q r w : ℝ) : KHeap ℝ :=
  { planar q r with
    get := fun n =>
      if n = 3 then { NodeImpl.fresh { Joint.new "wrist" (.rotational ⟨0, 0, 1⟩) with position := w } with
        children := [4] }
      else if n = 4 then { NodeImpl.fresh { Joint.new "tool" .fixed with origin := atX 1 } with parent := some 3 }
      else (planar q r).get n
    next := 5 }

def wristLink : Chain := ⟨[3, 4], [3], 1⟩

theorem planarBeside_get (q r w : ℝ) {n : NodeId} (hn : n < 3) : (planarBeside q r w).get n = (planar q r).get n := by
  simp only [planarBeside]
  rw [if_neg (by omega), if_neg (by omega)]

theorem planarBeside_arm (q r w : ℝ) : RootedArm (planarBeside q r w) planarArm where
  unlocked := fun _ => rfl
  wf := ⟨by simp [planarArm, planarBeside, planar, Movable, NodeImpl.fresh, Joint.new], rfl⟩
  root := ⟨0, [1, 2], rfl, by simp [liveParent, planarBeside, planar, NodeImpl.fresh]⟩
  serial := by
    intro pre a b post e
    have s := (planar_arm q r).serial pre a b post e
    have hb : b < 3 := by
      have : b ∈ planarArm.nodes := by rw [e]; simp
      have : b = 0 ∨ b = 1 ∨ b = 2 := by simpa [planarArm] using this
      omega
    unfold liveParent at s ⊢
    rw [planarBeside_get q r w hb]
    exact s
  nodup := by simp [planarArm]
  rigid := by
    intro n hn
    have : n = 0 ∨ n = 1 ∨ n = 2 := by simpa [planarArm] using hn
    rw [planarBeside_get q r w (by omega)]
    exact (planar_arm q r).rigid n hn

theorem planarBeside_link (q r w : ℝ) : RootedArm (planarBeside q r w) wristLink where
  unlocked := fun _ => rfl
  wf := ⟨by simp [wristLink, planarBeside, Movable, NodeImpl.fresh, Joint.new], rfl⟩
  root := ⟨3, [4], rfl, by simp [liveParent, planarBeside, NodeImpl.fresh]⟩
  serial := by
    intro pre a b post e
    match pre, e with
    | [], e => cases e; simp [liveParent, planarBeside, planar]
    | x :: pre, e =>
      have := congrArg List.length e
      simp [wristLink] at this
      omega
  nodup := by simp [wristLink]
  rigid := by
    intro n hn
    have : n = 3 ∨ n = 4 := by simpa [wristLink] using hn
    rcases this with rfl | rfl
    · exact ⟨by simp [planarBeside, NodeImpl.fresh, Joint.new, Iso.IsRigid, Iso.one, Quat.one_isUnit],
        by simp [planarBeside, NodeImpl.fresh, Joint.new, V3.IsUnit]⟩
    · exact ⟨by simp [planarBeside, NodeImpl.fresh, Joint.new, Iso.IsRigid, atX, Quat.one_isUnit],
        by simp [planarBeside, NodeImpl.fresh, Joint.new]⟩

theorem planarBeside_mounting (q r w : ℝ) :
    ∃ g, Mounting (planarBeside q r w) g planarArm wristLink 2 3 :=
  ⟨_, planarBeside_arm q r w, planarBeside_link q r w, by simp [planarArm, wristLink], rfl, rfl, rfl,
    run_Node_setParent _ _ _ fun _ => rfl⟩

/-- **C101**, a concrete case: `set_parent(wrist, tip)` on a planar arm of two links makes an arm of three links;
`from_end(tool)` finds its five nodes, the tool is where three links in a row put it, and `remove_parent` takes
the third link off again. -/
theorem C101_third_link (q r w : ℝ) :
    ∃ g, run (Node.setParent 3 2) (planarBeside q r w) = .ok () g ∧
      run (Chain.fromEnd 5 4) g = .ok ⟨[0, 1, 2, 3, 4], [0, 1, 3], 3⟩ g ∧
      (∃ X, run (Chain.mk [0, 1, 2, 3, 4] [0, 1, 3] 3).endTransform g = .ok X g ∧
        X.trans = ⟨Real.cos q + Real.cos (q + r) + Real.cos (q + r + w),
          Real.sin q + Real.sin (q + r) + Real.sin (q + r + w), 0⟩) ∧
      run (Node.removeParent 3 2) g = .ok () (planarBeside q r w) := by
  obtain ⟨g, m⟩ := planarBeside_mounting q r w
  refine ⟨g, m.mount, (C101_arm m 4 rfl).2 5 (by decide), ?_,
    C101_apart m (by simp [planarBeside, NodeImpl.fresh]) (by simp [planarBeside, planar, NodeImpl.fresh])⟩
  refine ⟨_, run_endTransform _ g m.unlocked, ?_⟩
  have x : endPose g [0, 1, 2, 3, 4] = _ := m.endPose
  rw [x]
  have uz : (⟨0, 0, 1⟩ : V3 ℝ).IsUnit := by simp [V3.IsUnit]
  have q0 := Quat.fromAxisAngle_isUnit uz q
  have q1 := Quat.fromAxisAngle_isUnit uz r
  have ea : endPose (planarBeside q r w) planarArm.nodes = endPose (planar q r) planarArm.nodes := by
    simp only [endPose, planarArm, List.foldl_cons, List.foldl_nil]
    rw [planarBeside_get q r w (n := 0) (by omega), planarBeside_get q r w (n := 1) (by omega),
      planarBeside_get q r w (n := 2) (by omega)]
  have tb : (endPose (planarBeside q r w) wristLink.nodes).trans = ⟨Real.cos w, Real.sin w, 0⟩ := by
    show ((Iso.one.mul (Iso.one.mul ⟨V3.zero, Quat.fromAxisAngle ⟨0, 0, 1⟩ w⟩)).mul ((atX 1).mul Iso.one)).trans = _
    rw [Iso.one_mul', Iso.one_mul', Iso.mul_one']
    simp only [Iso.mul, atX, zTurn]
    ext <;> simp [V3.add, V3.zero]
  have ra : (endPose (planar q r) planarArm.nodes).rot =
      (Quat.fromAxisAngle ⟨0, 0, 1⟩ q).mul (Quat.fromAxisAngle ⟨0, 0, 1⟩ r) := by
    show (((Iso.one.mul (Iso.one.mul ⟨V3.zero, Quat.fromAxisAngle ⟨0, 0, 1⟩ q⟩)).mul
      ((atX 1).mul ⟨V3.zero, Quat.fromAxisAngle ⟨0, 0, 1⟩ r⟩)).mul ((atX 1).mul Iso.one)).rot = _
    rw [Iso.one_mul', Iso.one_mul', Iso.mul_one']
    simp only [Iso.mul, atX, Quat.one_mul', Quat.mul_one']
  rw [ea]
  show (endPose (planar q r) planarArm.nodes).trans.add ((endPose (planar q r) planarArm.nodes).rot.rotate _) = _
  rw [(planar_places q r).2.2.2, ra, tb, Quat.rotate_mul q0 q1, zTurn, zTurn]
  have c1 : Real.cos (q + r + w) = Real.cos q * (Real.cos r * Real.cos w - Real.sin r * Real.sin w) -
      Real.sin q * (Real.sin r * Real.cos w + Real.cos r * Real.sin w) := by
    rw [add_assoc, Real.cos_add, Real.cos_add, Real.sin_add]
  have s1 : Real.sin (q + r + w) = Real.sin q * (Real.cos r * Real.cos w - Real.sin r * Real.sin w) +
      Real.cos q * (Real.sin r * Real.cos w + Real.cos r * Real.sin w) := by
    rw [add_assoc, Real.sin_add, Real.cos_add, Real.sin_add]
  rw [c1, s1]
  ext <;> simp only [V3.add] <;> ring

/-- the same nodes carrying other links -/
def relinked (h : KHeap ℝ) (f : NodeId → Option (Link ℝ)) : KHeap ℝ :=
  { h with get := fun n => { h.get n with link := f n } }

theorem RootedArm.relinked {h : KHeap ℝ} {c : Chain} (l : RootedArm h c) (f : NodeId → Option (Link ℝ)) :
    RootedArm (relinked h f) c :=
  ⟨l.unlocked, ⟨l.wf.movable.trans (List.filter_congr fun _ _ => decide_eq_decide.2 Iff.rfl), l.wf.dof⟩, l.root, l.serial, l.nodup, l.rigid⟩

/-- a load of mass 1 at the tip and one of mass 2 at the tool -/
def loads (n : NodeId) : Option (Link ℝ) :=
  if n = 2 then some { (Link.default : Link ℝ) with inertial := { Link.default.inertial with mass := 1 } }
  else if n = 4 then some { (Link.default : Link ℝ) with inertial := { Link.default.inertial with mass := 2 } }
  else none

/-- **C101**, a concrete case: with a mass of 1 at the tip of the planar arm and a mass of 2 at the tool of the
third link, the center of mass of the longer arm is two thirds of the way from one center to the other. -/
theorem C101_two_loads (q r w : ℝ) :
    ∃ g X u v c h1 h2 g1, run (Node.setParent 3 2) (relinked (planarBeside q r w) loads) = .ok () g ∧
      run planarArm.endTransform (relinked (planarBeside q r w) loads) = .ok X (relinked (planarBeside q r w) loads) ∧
      run (centerOfMass planarArm) (relinked (planarBeside q r w) loads) = .ok u h1 ∧
      run (centerOfMass wristLink) (relinked (planarBeside q r w) loads) = .ok v h2 ∧
      run (centerOfMass ⟨[0, 1, 2, 3, 4], [0, 1, 3], 3⟩) g = .ok c g1 ∧
      c.scale 3 = u.add ((X.apply v).scale 2) := by
  obtain ⟨g, m⟩ : ∃ g, Mounting (relinked (planarBeside q r w) loads) g planarArm wristLink 2 3 :=
    ⟨_, (planarBeside_arm q r w).relinked loads, (planarBeside_link q r w).relinked loads,
      by simp [planarArm, wristLink], rfl, rfl, rfl, run_Node_setParent _ _ _ fun _ => rfl⟩
  have ta : totalMass (relinked (planarBeside q r w) loads) planarArm.nodes = 1 := by
    simp [totalMass, planarArm, massOf, relinked, loads]
  have tb : totalMass (relinked (planarBeside q r w) loads) wristLink.nodes = 2 := by
    simp [totalMass, wristLink, massOf, relinked, loads]
  obtain ⟨X, u, v, c, h1, h2, g1, e1, e2, e3, e4, x⟩ := C101_center_of_mass m (by rw [ta]; norm_num)
    (by rw [tb]; norm_num) (by rw [ta, tb]; norm_num)
  refine ⟨g, X, u, v, c, h1, h2, g1, m.mount, e1, e2, e3, e4, ?_⟩
  rw [ta, tb] at x
  have o : u.scale 1 = u := by ext <;> simp [V3.scale]
  rw [o] at x
  rw [← x]
  norm_num

/-- **C101**, a concrete case: the columns for the two joints of the planar arm get the part by which the third
link is longer, and that for the wrist joint is turned. -/
example (q r w : ℝ) : ∃ g X Y J K' J' h1 h2 g1, run (Node.setParent 3 2) (planarBeside q r w) = .ok () g ∧
    run (jacobian planarArm) (planarBeside q r w) = .ok J h1 ∧
    run (jacobian wristLink) (planarBeside q r w) = .ok K' h2 ∧
    run (jacobian ⟨[0, 1, 2, 3, 4], [0, 1, 3], 3⟩) g = .ok J' g1 ∧
    J' = J.map (carriedColumn ((X : Iso ℝ).rot.rotate (Y : Iso ℝ).trans)) ++ K'.map (seenColumn X.rot) := by
  obtain ⟨g, m⟩ := planarBeside_mounting q r w
  obtain ⟨X, Y, J, K', J', h1, h2, g1, -, -, e1, e2, e3, x⟩ := C101_jacobian m
  exact ⟨g, X, Y, J, K', J', h1, h2, g1, m.mount, e1, e2, e3, x⟩

end
end K
