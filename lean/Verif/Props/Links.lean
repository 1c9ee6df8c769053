import Verif.Lemmas.Calls
import Verif.Lemmas.Run
import Verif.Model.Urdf
import Verif.Spec.Geom
import Verif.Spec.Chain
import Mathlib.Tactic.Ring
/-!
# C55–C57: links, the link builder and URDF links
-/

set_option linter.unusedSectionVars false

namespace K
open Prog
variable {T : Type} [Scalar T]

/-! ## C55 -/

/-- **C55**: `set_link(l)` succeeds, `link()` of that node then gives `l`, and nothing else in the world
changes. -/
theorem C55_set_get (h : KHeap T) (u : h.Unlocked) (n : NodeId) (l : Option (Link T)) :
    ∃ h', run (Node.setLink n l) h = .ok () h' ∧ h'.Unlocked ∧
      run (Node.link n) h' = .ok l h' ∧
      (∀ m, m ≠ n → h'.get m = h.get m) ∧
      (h'.get n).joint = (h.get n).joint ∧ (h'.get n).parent = (h.get n).parent ∧
      (h'.get n).children = (h.get n).children ∧
      (h'.get n).mimicParent = (h.get n).mimicParent ∧
      (h'.get n).mimicChildren = (h.get n).mimicChildren ∧ (h'.get n).mimic = (h.get n).mimic ∧
      h'.next = h.next ∧ h'.dead = h.dead := by
  refine ⟨_, run_poke n _ h (u n), u.modify _ _, ?_, fun m hm => h.get_modify_of_ne _ hm, ?_⟩
  · rw [run_Node_link _ _ (u.modify _ _ n)]; simp
  · simp

/-- **C55**: `iter_links()` yields the links of the chain's nodes, in chain order, skipping exactly the
nodes without one, and changes nothing. -/
theorem C55_iter_links (c : Chain) (h : KHeap T) (u : h.Unlocked) :
    run (c.iterLinks : KProg T _) h = .ok (c.nodes.filterMap fun n => (h.get n).link) h := by
  have one : ∀ n, run (do
      if (← Node.link n).isSome then
        doLock n
        let s ← doRead n
        let l ← expect s.link "called `Option::unwrap()` on a `None` value"
        doUnlock n
        return some l
      else return none : KProg T (Option (Link T))) h = .ok (h.get n).link h := by
    intro n
    simp only [run_bind, run_Node_link _ _ (u n), Res.bind_ok]
    cases e : (h.get n).link with
    | none => rfl
    | some l =>
      simp only [Option.isSome_some, if_true, run_bind, run_doLock_free _ _ (u n), Res.bind_ok,
        run_doRead, Heap.get_setHeld, e, run_expect_some, run_doUnlock,
        Heap.setHeld_setHeld_false _ _ (u n), run_pure]
  unfold Chain.iterLinks
  rw [run_bind, run_mapList_pure (g := fun n => (h.get n).link) fun n _ => one n]
  simp [List.filterMap_map, Function.comp_def]

/-- a link without its cached world transforms -/
def Link.bare (l : Link T) : Link T :=
  { l with
    inertial := { l.inertial with worldTransformCache := none }
    visuals := l.visuals.map fun v => { v with worldTransformCache := none }
    collisions := l.collisions.map fun c => { c with worldTransformCache := none } }

/-- every call but `set_link` -/
def NotSetLink {β : Type} : Call T β → Prop
  | .setLink _ _ => False
  | _ => True

private theorem links_call (h : KHeap T) {β : Type} (c : Call T β) (a : NotSetLink c) :
    Safe h.next (fun n s => n < h.next → s.link.map Link.bare = (h.get n).link.map Link.bare)
      (fun _ => True) c.prog := by
  refine safe_call c ?_ (fun n _ => .all (fun m y s z l => z l) n) ?_
  · intro n f w s z l
    cases c <;> simp only [Call.MayWrite] at w
    case setParent => rcases w with ⟨_, rfl⟩ | ⟨_, rfl⟩ <;> exact z l
    case removeParent => rcases w with ⟨_, rfl⟩ | ⟨_, rfl⟩ <;> exact z l
    case setMimicParent => rcases w with ⟨_, rfl⟩ | ⟨_, rfl⟩ | ⟨_, rfl⟩ <;> exact z l
    case setLink => exact a.elim
    case setOrigin => obtain ⟨_, rfl⟩ := w; exact z l
    case setJointPositionClamped => obtain ⟨_, rfl⟩ := w; exact z l
    case setJointPositionUnchecked => obtain ⟨_, rfl⟩ := w; exact z l
    case chainSetOrigin => obtain ⟨_, rfl⟩ := w; exact z l
    case setJointPositionsClamped => obtain ⟨_, y, _, rfl⟩ := w; exact z l
    case setJointPositionsUnchecked => obtain ⟨_, y, _, rfl⟩ := w; exact z l
    case updateTransforms => obtain ⟨_, t, rfl⟩ := w; exact z l
    case updateVelocities => rcases w with ⟨_, ⟨t, rfl⟩ | ⟨t, rfl⟩⟩ <;> exact z l
    case updateLinkTransforms =>
      rcases w with ⟨_, ⟨t, rfl⟩ | ⟨t, rfl⟩⟩
      · exact z l
      · rw [← z l]
        show (s.link.map (Chain.placeLink t)).map Link.bare = s.link.map Link.bare
        cases s.link with
        | none => rfl
        | some k =>
          simp [Chain.placeLink, Link.bare, Inertial.setWorldTransform, Visual.setWorldTransform,
            Collision.setWorldTransform, Function.comp_def]
    case cloneChain => exact absurd l (Nat.not_lt.2 w.1)
    case jacobian => obtain ⟨_, t, rfl⟩ := w; exact z l
    case centerOfMass => obtain ⟨_, t, rfl⟩ := w; exact z l
    case solve => rcases w with ⟨_, t, rfl⟩ | ⟨_, y, rfl⟩ <;> exact z l
  · cases c <;> simp only [Call.AllocOK]
    case newNode => exact fun m hm l => absurd l (Nat.not_lt.2 hm)
    case cloneChain => exact fun _ _ _ m hm l => absurd l (Nat.not_lt.2 hm)

/-- **C55**: apart from `set_link`, no call of any client thread, in any interleaving, changes anything
in the link of an existing node but the cached world transforms of its parts. -/
theorem C55_kept {α : Type} (cls : List (Client T α)) (a : ∀ cl ∈ cls, cl.Only NotSetLink)
    (h : KHeap T) (d : Config (NodeImpl T) α) (st : DSteps ⟨h, cls.map Client.prog⟩ d) (n : NodeId)
    (hn : n < h.next) : (d.heap.get n).link.map Link.bare = (h.get n).link.map Link.bare := by
  have i : HeapInv h.next
      (fun n s => n < h.next → s.link.map Link.bare = (h.get n).link.map Link.bare) h :=
    ⟨Nat.le_refl _, fun n _ => rfl⟩
  exact (steps_safe (Q := fun _ => True) st (fun p hp => by
    obtain ⟨cl, hcl, rfl⟩ := List.mem_map.1 hp
    exact safe_client_of (links_call h) cl (a cl hcl)) i).2.2 n hn

/-- **C55**: `iter_joints()` yields the joints of the movable nodes, in chain order, and changes nothing. -/
theorem C55_iter_joints (c : Chain) (h : KHeap T) (u : h.Unlocked) (w : c.Wf h) :
    run (c.iterJoints : KProg T _) h =
      .ok ((c.nodes.filter fun n => decide (Movable h n)).map fun n => (h.get n).joint) h := by
  rw [Chain.iterJoints, run_mapList_pure fun n _ => run_Node_joint n h (u n), w.movable]

/-- a Fixed joint and a movable one: `iter_joints` gives the second -/
example : ∃ h : KHeap ℝ, h.Unlocked ∧ Chain.Wf h ⟨[0, 1], [1], 1⟩ ∧
    run ((⟨[0, 1], [1], 1⟩ : Chain).iterJoints : KProg ℝ _) h = .ok [Joint.new "b" (.linear ⟨1, 0, 0⟩)] h := by
  have w : Chain.Wf (T := ℝ) { get := fun n => NodeImpl.fresh (if n = 1 then Joint.new "b" (.linear ⟨1, 0, 0⟩)
      else Joint.new "a" .fixed), next := 2, dead := fun _ => false, held := fun _ => false }
      (⟨[0, 1], [1], 1⟩ : Chain) := ⟨by simp [Movable, NodeImpl.fresh, Joint.new], rfl⟩
  refine ⟨_, fun _ => rfl, w, ?_⟩
  rw [C55_iter_joints _ _ (fun _ => rfl) w]; simp [Movable, NodeImpl.fresh, Joint.new]

/-- two nodes, only the second with a link: `iter_links` gives that one link -/
example : ∃ h : KHeap ℝ, h.Unlocked ∧
    run ((⟨[0, 1], [], 0⟩ : Chain).iterLinks : KProg ℝ _) h = .ok [Link.default] h := by
  refine ⟨{ get := fun n => { NodeImpl.fresh (Joint.new "j" .fixed) with
              link := if n = 1 then some Link.default else none }, next := 2,
            dead := fun _ => false, held := fun _ => false }, fun _ => rfl, ?_⟩
  rw [C55_iter_links _ _ fun _ => rfl]; simp

/-! ## C56 -/

/-- the names given to the builder -/
def namesOf (cs : List (LinkBuilderCall T)) : List String :=
  cs.filterMap fun | .name s => some s | _ => none
/-- the inertials given to the builder -/
def inertialsOf (cs : List (LinkBuilderCall T)) : List (Inertial T) :=
  cs.filterMap fun | .inertial i => some i | _ => none
/-- the visuals given to the builder -/
def visualsOf (cs : List (LinkBuilderCall T)) : List (Visual T) :=
  cs.filterMap fun | .addVisual v => some v | _ => none
/-- the collisions given to the builder -/
def collisionsOf (cs : List (LinkBuilderCall T)) : List (Collision T) :=
  cs.filterMap fun | .addCollision c => some c | _ => none

/-- **C56**: whatever the order of the calls, the link has the last name given (else the empty one), the
last inertial given (else mass zero at the origin with the identity as inertia), and all the visuals and
all the collisions given, in the order they were given. -/
theorem C56_link_builder (cs : List (LinkBuilderCall T)) :
    (Link.build cs).name = (namesOf cs).getLast?.getD "" ∧
    (Link.build cs).inertial = (inertialsOf cs).getLast?.getD ⟨Iso.one, 0, M3.one, none⟩ ∧
    (Link.build cs).visuals = visualsOf cs ∧
    (Link.build cs).collisions = collisionsOf cs := by
  have go : ∀ (b : Link T) (cs : List (LinkBuilderCall T)),
      (cs.foldl LinkBuilderCall.apply b).name = (namesOf cs).getLast?.getD b.name ∧
      (cs.foldl LinkBuilderCall.apply b).inertial = (inertialsOf cs).getLast?.getD b.inertial ∧
      (cs.foldl LinkBuilderCall.apply b).visuals = b.visuals ++ visualsOf cs ∧
      (cs.foldl LinkBuilderCall.apply b).collisions = b.collisions ++ collisionsOf cs := by
    intro b cs
    induction cs generalizing b with
    | nil => simp [namesOf, inertialsOf, visualsOf, collisionsOf]
    | cons c cs ih =>
      obtain ⟨e1, e2, e3, e4⟩ := ih (c.apply b)
      rw [List.foldl_cons, e1, e2, e3, e4]
      cases c <;> simp [namesOf, inertialsOf, visualsOf, collisionsOf, LinkBuilderCall.apply,
        List.getLast?_cons]
  have := go Link.default cs
  simpa [Link.build, Link.default, Inertial.new] using this

/-- **C56**: moving an inertial, visual or collision drops its cached world transform (so a stale one is
never seen), keeps everything else, and a new one has none. -/
theorem C56_set_origin (i : Inertial T) (v : Visual T) (c : Collision T) (o : Iso T) :
    (i.setOrigin o).origin = o ∧ (i.setOrigin o).worldTransformCache = none ∧
    (i.setOrigin o).mass = i.mass ∧ (i.setOrigin o).inertia = i.inertia ∧
    (v.setOrigin o).origin = o ∧ (v.setOrigin o).worldTransformCache = none ∧
    (v.setOrigin o).name = v.name ∧ (v.setOrigin o).geometry = v.geometry ∧
    (v.setOrigin o).material = v.material ∧
    (c.setOrigin o).origin = o ∧ (c.setOrigin o).worldTransformCache = none ∧
    (c.setOrigin o).name = c.name ∧ (c.setOrigin o).geometry = c.geometry := by
  simp [Inertial.setOrigin, Visual.setOrigin, Collision.setOrigin]

/-- **C56**: the constructors give what they were given, without a cached transform; `from_mass` puts
the mass at the origin with the identity as inertia. -/
theorem C56_new (o : Iso T) (m : T) (I : M3 T) (s : String) (g : Geometry T) (mt : Material T) :
    (Inertial.new o m I) = ⟨o, m, I, none⟩ ∧ (Inertial.fromMass m) = ⟨Iso.one, m, M3.one, none⟩ ∧
    (Visual.new s o g mt) = ⟨s, o, g, mt, none⟩ ∧ (Collision.new s o g) = ⟨s, o, g, none⟩ :=
  ⟨rfl, rfl, rfl, rfl⟩

/-- builder calls in mixed order -/
example (v1 v2 : Visual ℝ) (i1 i2 : Inertial ℝ) :
    let l := Link.build [.name "a", .addVisual v1, .inertial i1, .name "b", .addVisual v2, .inertial i2]
    l.name = "b" ∧ l.visuals = [v1, v2] ∧ l.inertial = i2 ∧ l.collisions = [] := by
  obtain ⟨a, b, c, d⟩ := C56_link_builder (T := ℝ)
    [.name "a", .addVisual v1, .inertial i1, .name "b", .addVisual v2, .inertial i2]
  exact ⟨by rw [a]; rfl, by rw [c]; rfl, by rw [b]; rfl, by rw [d]; rfl⟩

/-! ## C57 -/

namespace Urdf
variable {F : Type} [Scalar F]

/-- the geometry is of the same kind with the same dimensions; a mesh without a scale has scale 1 -/
def GeometryMatches (cv : F → T) : GeometryTag F → Geometry T → Prop
  | .box s, .box d w h => d = cv s.x ∧ w = cv s.y ∧ h = cv s.z
  | .cylinder r l, .cylinder r' l' => r' = cv r ∧ l' = cv l
  | .capsule r l, .capsule r' l' => r' = cv r ∧ l' = cv l
  | .sphere r, .sphere r' => r' = cv r
  | .mesh f (some s), .mesh f' s' => f' = f ∧ s'.x = cv s.x ∧ s'.y = cv s.y ∧ s'.z = cv s.z
  | .mesh f none, .mesh f' s' => f' = f ∧ s'.x = cv (Scalar.lit 1 1) ∧ s'.y = cv (Scalar.lit 1 1) ∧
      s'.z = cv (Scalar.lit 1 1)
  | _, _ => False

/-- the pose: translation converted, rotation from roll, pitch and yaw (see C36) -/
def PoseMatches (cv : F → T) (p : Pose F) (o : Iso T) : Prop :=
  o.trans = ⟨cv p.xyz.x, cv p.xyz.y, cv p.xyz.z⟩ ∧ o.rot = quaternionFrom cv p.rpy

/-- the colour, black and transparent when absent -/
def ColorMatches (cv : F → T) : Option (F × F × F × F) → Color T → Prop
  | some (r, g, b, a), c => c.r = cv r ∧ c.g = cv g ∧ c.b = cv b ∧ c.a = cv a
  | none, c => c.r = cv 0 ∧ c.g = cv 0 ∧ c.b = cv 0 ∧ c.a = cv 0

/-- the material, empty when absent -/
def MaterialMatches (cv : F → T) : Option (MaterialTag F) → Material T → Prop
  | some t, m => m.name = t.name ∧ ColorMatches cv t.color m.color ∧
      (∀ f, t.texture = some f → m.texture = f) ∧ (t.texture = none → m.texture = "")
  | none, m => m.name = "" ∧ ColorMatches cv (none : Option (F × F × F × F)) m.color ∧ m.texture = ""

/-- mass, frame and the six inertia entries placed symmetrically -/
structure InertialMatches (cv : F → T) (t : InertialTag F) (i : Inertial T) : Prop where
  pose : PoseMatches cv t.origin i.origin
  mass : i.mass = cv t.mass
  diagonal : i.inertia.m11 = cv t.ixx ∧ i.inertia.m22 = cv t.iyy ∧ i.inertia.m33 = cv t.izz
  upper : i.inertia.m12 = cv t.ixy ∧ i.inertia.m13 = cv t.ixz ∧ i.inertia.m23 = cv t.iyz
  symmetric : i.inertia.m21 = i.inertia.m12 ∧ i.inertia.m31 = i.inertia.m13 ∧
    i.inertia.m32 = i.inertia.m23
  noCache : i.worldTransformCache = none

/-- one visual -/
structure VisualMatches (cv : F → T) (t : VisualTag F) (v : Visual T) : Prop where
  name : (∀ s, t.name = some s → v.name = s) ∧ (t.name = none → v.name = "")
  pose : PoseMatches cv t.origin v.origin
  geometry : GeometryMatches cv t.geometry v.geometry
  material : MaterialMatches cv t.material v.material
  noCache : v.worldTransformCache = none

/-- one collision -/
structure CollisionMatches (cv : F → T) (t : CollisionTag F) (v : Collision T) : Prop where
  name : (∀ s, t.name = some s → v.name = s) ∧ (t.name = none → v.name = "")
  pose : PoseMatches cv t.origin v.origin
  geometry : GeometryMatches cv t.geometry v.geometry
  noCache : v.worldTransformCache = none

private theorem geometry_matches (cv : F → T) (g : GeometryTag F) :
    GeometryMatches cv g (geometryFrom cv g) := by
  cases g with
  | mesh f s => cases s <;> simp [GeometryMatches, geometryFrom, cvV3]
  | _ => simp [GeometryMatches, geometryFrom]

private theorem color_matches (cv : F → T) (c : Option (F × F × F × F)) :
    ColorMatches cv c (colorFrom cv c) := by
  rcases c with _ | ⟨r, g, b, a⟩ <;> simp [ColorMatches, colorFrom]

private theorem material_matches (cv : F → T) (m : Option (MaterialTag F)) :
    MaterialMatches cv m (materialFrom cv m) := by
  rcases m with _ | m
  · exact ⟨rfl, color_matches cv none, rfl⟩
  · refine ⟨rfl, color_matches cv m.color, fun f e => ?_, fun e => ?_⟩ <;> simp [materialFrom, e]

/-- **C57**.  The link made from a URDF link has its name, its inertial with mass and frame and the
inertia entries in a symmetric matrix, and its visuals and collisions, one for one and in order. -/
theorem C57_link (cv : F → T) (t : LinkTag F) :
    (linkFrom cv t).name = t.name ∧
    InertialMatches cv t.inertial (linkFrom cv t).inertial ∧
    List.Forall₂ (VisualMatches cv) t.visual (linkFrom cv t).visuals ∧
    List.Forall₂ (CollisionMatches cv) t.collision (linkFrom cv t).collisions := by
  refine ⟨rfl, ⟨⟨rfl, rfl⟩, rfl, ⟨rfl, rfl, rfl⟩, ⟨rfl, rfl, rfl⟩, ⟨rfl, rfl, rfl⟩, rfl⟩, ?_, ?_⟩
  · show List.Forall₂ _ t.visual (t.visual.map (visualFrom cv))
    rw [List.forall₂_map_right_iff, List.forall₂_same]
    intro v _
    exact ⟨⟨fun s e => by simp [visualFrom, Visual.new, e],
      fun e => by simp [visualFrom, Visual.new, e]⟩, ⟨rfl, rfl⟩, geometry_matches cv _,
      material_matches cv _, rfl⟩
  · show List.Forall₂ _ t.collision (t.collision.map (collisionFrom cv))
    rw [List.forall₂_map_right_iff, List.forall₂_same]
    intro v _
    exact ⟨⟨fun s e => by simp [collisionFrom, Collision.new, e],
      fun e => by simp [collisionFrom, Collision.new, e]⟩, ⟨rfl, rfl⟩, geometry_matches cv _, rfl⟩

/-- `x . (I x)`: for an angular velocity `x`, twice the rotational energy -/
def quadForm (I : M3 ℝ) (x : V3 ℝ) : ℝ :=
  x.x * (I.m11 * x.x + I.m12 * x.y + I.m13 * x.z) + x.y * (I.m21 * x.x + I.m22 * x.y + I.m23 * x.z) +
    x.z * (I.m31 * x.x + I.m32 * x.y + I.m33 * x.z)

/-- **C57** (exact arithmetic): the inertia matrix is that of the quadratic form the six URDF numbers
describe. -/
theorem C57_energy (t : InertialTag ℝ) (x : V3 ℝ) :
    quadForm (inertialFrom (T := ℝ) id t).inertia x =
      t.ixx * x.x ^ 2 + t.iyy * x.y ^ 2 + t.izz * x.z ^ 2 +
      2 * (t.ixy * x.x * x.y + t.ixz * x.x * x.z + t.iyz * x.y * x.z) := by
  simp only [quadForm, inertialFrom, Inertial.new, id]; ring

/-- a link with two visuals, one of them unnamed with a mesh without scale -/
example : let t : LinkTag ℝ := ⟨"l", ⟨⟨⟨0, 0, 0⟩, ⟨0, 0, 0⟩⟩, 2, 1, 0, 0, 1, 0, 1⟩,
      [⟨none, ⟨⟨0, 0, 0⟩, ⟨0, 0, 0⟩⟩, .mesh "f" none, none⟩,
       ⟨some "v", ⟨⟨0, 0, 1⟩, ⟨0, 0, 0⟩⟩, .sphere 3, none⟩], []⟩
    (linkFrom (T := ℝ) id t).visuals.map (·.name) = ["", "v"] := rfl

end Urdf
end K
