import Verif.Props.Builders
import Verif.Props.IkEx
import Verif.Props.Traverse
/-!
# C102, concrete cases

Two threads that start with nothing, each build a rail of two sliders and ask where its end is.
-/

namespace K
open Prog

/-- creates two sliders at `x` and `y`, puts one on the other, makes a chain of them and asks for its end -/
noncomputable def buildRail (x y : ℝ) : Client ℝ (Iso ℝ) :=
  .call (.newNode (slider "a" none x)) fun a => .call (.newNode (slider "b" none y)) fun b =>
  .call (.setParent b a) fun _ => .call (.fromEnd 2 b) fun c => .call (.endTransform c) fun X => .done X

/-- a memory in which nothing has been created yet -/
noncomputable def noNodes : KHeap ℝ :=
  { get := fun _ => NodeImpl.fresh (slider "a" none 0), next := 0, dead := fun _ => false, held := fun _ => false }

/-- the memory after `buildRail` -/
noncomputable def withRail (h : KHeap ℝ) (x y : ℝ) : KHeap ℝ :=
  ((((h.push (NodeImpl.fresh (slider "a" none x))).push (NodeImpl.fresh (slider "b" none y))).modify (h.next + 1)
    fun s => { s with parent := some h.next }).modify h.next fun s => { s with children := s.children ++ [h.next + 1] })

theorem run_buildRail (x y : ℝ) (h : KHeap ℝ) (u : h.Unlocked) :
    ∃ X : Iso ℝ, run (buildRail x y).prog h = .ok X (withRail h x y) ∧ X.trans = ⟨x + y, 0, 0⟩ ∧
      X.rot = Quat.one := by
  have u' : (withRail h x y).Unlocked := u
  have l : Lineage (withRail h x y) (h.next + 1) [h.next + 1, h.next] :=
    .step (p := h.next) (by simp [liveParent, withRail, Heap.get_modify, Heap.dead_modify, Heap.push, NodeImpl.fresh])
      (.root (by simp [liveParent, withRail, Heap.get_modify, Heap.dead_modify, Heap.push, NodeImpl.fresh]))
  obtain ⟨c, ec, cn, -⟩ := C07_from_nodes (withRail h x y) u' [h.next, h.next + 1]
  refine ⟨endPose (withRail h x y) c.nodes, ?_, ?_⟩
  · have s : run (Node.setParent (h.next + 1) h.next)
        ((h.push (NodeImpl.fresh (slider "a" none x))).push (NodeImpl.fresh (slider "b" none y))) =
        .ok () (withRail h x y) := run_Node_setParent _ _ _ u
    have nx : (h.push (NodeImpl.fresh (slider "a" none x))).next = h.next + 1 := rfl
    simp only [buildRail, Client.prog, Call.prog, run_bind, run_Node_new, Res.bind_ok, nx, s, Chain.fromEnd,
      run_ancestors _ u' _ _ l 2 (by simp), List.reverse_cons, List.reverse_nil, List.nil_append, List.cons_append, ec,
      run_endTransform _ _ u', run]
  · rw [cn]
    have g0 : ((withRail h x y).get h.next).joint = slider "a" none x := by simp [withRail, Heap.get_modify, Heap.push, NodeImpl.fresh]
    have g1 : ((withRail h x y).get (h.next + 1)).joint = slider "b" none y := by
      simp [withRail, Heap.get_modify, Heap.push, NodeImpl.fresh]
    have lt : ∀ (nm : String) (z : ℝ), (slider nm none z).localTransform = ⟨⟨z, 0, 0⟩, Quat.one⟩ := by
      intro nm z
      show Iso.one.mul ⟨(⟨1, 0, 0⟩ : V3 ℝ).scale z, Quat.one⟩ = _
      rw [Iso.one_mul']
      simp [V3.scale]
    simp only [endPose, List.foldl_cons, List.foldl_nil, g0, g1, lt, Iso.one_mul']
    simp [Iso.mul, V3.add, Quat.rotate_one, Quat.one_mul']

theorem buildRail_owns (R : NodeId → Prop) (x y : ℝ) : (buildRail x y).Owns R := by
  intro R' _
  exact ⟨trivial, fun a ha => ⟨trivial, fun b hb => ⟨⟨hb, ha⟩, fun _ _ => ⟨hb, fun c hc => ⟨hc, fun _ _ => trivial⟩⟩⟩⟩⟩

theorem buildRail_nameless (k : Nat) (x y : ℝ) : (buildRail x y).Nameless k := by
  intro ρ _
  simp only [buildRail, Client.rename, Call.rename, Call.answer]
  refine congrArg (Client.call _) (funext fun a => ?_)
  refine congrArg (Client.call _) (funext fun b => ?_)
  simp only [Equiv.apply_symm_apply]
  refine congrArg (Client.call _) (funext fun _ => ?_)
  refine congrArg (Client.call _) (funext fun c => ?_)
  have : (c.rename ρ.symm).rename ρ = c := by
    cases c; simp [Chain.rename, List.map_map, Function.comp_def]
  rw [this]

theorem twoBuilders (x y z w : ℝ) : Builders (fun _ _ => False) noNodes [buildRail x y, buildRail z w] where
  separate := ⟨fun _ _ _ _ x => x.elim, fun _ _ x => x.elim⟩
  exist := fun _ _ x => x.elim
  idle := fun _ _ => rfl
  owns := by
    intro i c hc
    match i, hc with
    | 0, hc => cases hc; exact buildRail_owns _ x y
    | 1, hc => cases hc; exact buildRail_owns _ z w
  nameless := by
    intro i c hc
    match i, hc with
    | 0, hc => cases hc; exact buildRail_nameless _ x y
    | 1, hc => cases hc; exact buildRail_nameless _ z w

/-- **C102**, a concrete case: however the two threads are interleaved, each finds the end of its rail where its own
sliders put it, and there is always a way to go on until both have finished. -/
theorem C102_two_rails (x y z w : ℝ) (d : Config (NodeImpl ℝ) (Iso ℝ))
    (st : Steps (Config.ofClients noNodes [buildRail x y, buildRail z w]) d) :
    (∀ X, d.threads[0]? = some (.ret X) → X.trans = ⟨x + y, 0, 0⟩) ∧
      (∀ X, d.threads[1]? = some (.ret X) → X.trans = ⟨z + w, 0, 0⟩) ∧
      ∃ e X Y, Steps d e ∧ e.threads[0]? = some (.ret X) ∧ e.threads[1]? = some (.ret Y) := by
  obtain ⟨X, eX, tX, -⟩ := run_buildRail x y noNodes fun _ => rfl
  obtain ⟨Y, eY, tY, -⟩ := run_buildRail z w noNodes fun _ => rfl
  refine ⟨fun X' e => ?_, fun Y' e => ?_, ?_⟩
  · obtain ⟨g, -, er, -⟩ := C102_result (twoBuilders x y z w) st 0 _ rfl X' e
    rw [eX] at er; cases er; exact tX
  · obtain ⟨g, -, er, -⟩ := C102_result (twoBuilders x y z w) st 1 _ rfl Y' e
    rw [eY] at er; cases er; exact tY
  · obtain ⟨e, se, fin⟩ := C102_finish (twoBuilders x y z w) (fun i => if i = 0 then X else Y) (by
      intro i c hc
      match i, hc with
      | 0, hc => cases hc; exact ⟨_, eX⟩
      | 1, hc => cases hc; exact ⟨_, eY⟩) st
    exact ⟨e, X, Y, se, fin 0 (by simp), fin 1 (by simp)⟩

/-- **C102.** Which objects a thread gets depends on the schedule: the first slider of the first thread is object 0 in
one complete execution and object 2 in another one. -/
theorem C102_other_objects (x y z w : ℝ) :
    ∃ d e X Y, Steps (Config.ofClients noNodes [buildRail x y, buildRail z w]) d ∧
      Steps (Config.ofClients noNodes [buildRail x y, buildRail z w]) e ∧ d.threads = [.ret X, .ret Y] ∧
      e.threads = [.ret X, .ret Y] ∧ (d.heap.get 0).joint = slider "a" none x ∧ (e.heap.get 2).joint = slider "a" none x ∧
      (d.heap.get 2).joint = slider "a" none z ∧ (e.heap.get 0).joint = slider "a" none z := by
  have same : ∀ (x y : ℝ) (h g : KHeap ℝ), h.Unlocked → g.Unlocked → ∃ X, run (buildRail x y).prog h = .ok X (withRail h x y) ∧
      run (buildRail x y).prog g = .ok X (withRail g x y) := by
    intro x y h g u v
    obtain ⟨X, eX, tX, rX⟩ := run_buildRail x y h u
    obtain ⟨Y, eY, tY, rY⟩ := run_buildRail x y g v
    have : X = Y := by
      cases X; cases Y
      simp only at tX tY rX rY
      rw [tX, tY, rX, rY]
    exact ⟨X, eX, this ▸ eY⟩
  obtain ⟨X, x1, x2⟩ := same x y noNodes (withRail noNodes z w) (fun _ => rfl) fun _ => rfl
  obtain ⟨Y, y1, y2⟩ := same z w noNodes (withRail noNodes x y) (fun _ => rfl) fun _ => rfl
  have run_ : ∀ {h h' : KHeap ℝ} {ts : List (KProg ℝ (Iso ℝ))} {i : Nat} {c : Client ℝ (Iso ℝ)} {X : Iso ℝ},
      run c.prog h = .ok X h' → ts[i]? = some c.prog → Steps ⟨h, ts⟩ ⟨h', ts.set i (.ret X)⟩ := by
    intro h h' ts i c X er ei
    refine steps_run (f := Prog.ret) er ?_
    rw [ei]
    congr 1
    exact (bind_ret' _).symm
  refine ⟨⟨withRail (withRail noNodes x y) z w, [.ret X, .ret Y]⟩, ⟨withRail (withRail noNodes z w) x y, [.ret X, .ret Y]⟩, X, Y,
    (run_ (i := 0) (c := buildRail x y) x1 rfl).trans (run_ (i := 1) (c := buildRail z w) y2 rfl),
    (run_ (i := 1) (c := buildRail z w) y1 rfl).trans (run_ (i := 0) (c := buildRail x y) x2 rfl), rfl, rfl, ?_, ?_, ?_, ?_⟩ <;>
    simp [withRail, Heap.get_modify, Heap.push, NodeImpl.fresh, noNodes]

end K
