import Verif.Lemmas.Rely
import Verif.Props.Mimic
import Verif.Props.Static
/-!
# C62: mimic joints shared between threads
-/

set_option linter.unusedSectionVars false

namespace K
open Prog
variable {T : Type} [Scalar T] {α : Type}

/-! ## specification -/

/-- masters and mimic children are allocated nodes -/
def MimicOwned (h : KHeap T) : Prop :=
  ∀ m c, c ∈ (h.get m).mimicChildren → m < h.next ∧ c < h.next

/-- a mimic child accepts the position that follows from any position its master accepts -/
def FollowersAccept (h : KHeap T) : Prop :=
  ∀ m c mi x, c ∈ (h.get m).mimicChildren → (h.get c).mimic = some mi →
    ((h.get m).joint.setJointPosition x).2 = .ok () →
    ((h.get c).joint.setJointPosition (x * mi.multiplier + mi.origin)).2 = .ok ()

/-- `n` neither mimics nor is mimicked -/
def NoMimic (h : KHeap T) (n : NodeId) : Prop :=
  (h.get n).mimicChildren = [] ∧ ∀ m, n ∉ (h.get m).mimicChildren

/-- everything but: registering mimic children, `update_velocities`, cloning, IK, and the clamped and
unchecked setters on joints that mimic or are mimicked -/
def FollowingCall (h : KHeap T) {β : Type} : Call T β → Prop
  | .setMimicParent _ _ _ => False
  | .updateVelocities _ => False
  | .cloneChain _ _ => False
  | .solve _ _ _ _ => False
  | .setJointPositionClamped n _ => NoMimic h n
  | .setJointPositionUnchecked n _ => NoMimic h n
  | .setJointPositionsClamped c _ => ∀ n ∈ c.movableNodes, NoMimic h n
  | .setJointPositionsUnchecked c _ => ∀ n ∈ c.movableNodes, NoMimic h n
  | _ => True

/-! ## proof -/

/-- what does not change -/
structure MimicStatic (h : KHeap T) (n : NodeId) (s : NodeImpl T) : Prop where
  mimicParent : n < h.next → s.mimicParent = (h.get n).mimicParent
  mimicChildren : s.mimicChildren = (if n < h.next then (h.get n).mimicChildren else [])
  mimic : n < h.next → s.mimic = (h.get n).mimic
  data : n < h.next → (h.get n).joint.sameData s.joint

private def pos (g : NodeId → NodeImpl T) (n : NodeId) : T := (g n).joint.position

/-- the mutex of a master protects its position and those of its mimic children -/
private def mimicGuard (h : KHeap T) (own : MimicOwned h) : Guarded (NodeImpl T) h.next where
  same m g g' := m < h.next → ∀ c ∈ (h.get m).mimicChildren, pos g m = pos g' m ∧ pos g c = pos g' c
  inv m g := m < h.next → ∀ c ∈ (h.get m).mimicChildren, ∀ mi, (h.get c).mimic = some mi →
    pos g c = pos g m * mi.multiplier + mi.origin
  keep n g g' s i l c hc mi e := by
    rw [← (s l c hc).1, ← (s l c hc).2]; exact i l c hc mi e
  fresh n k s g hk l := by
    have a : ∀ j, j < h.next → pos g j = pos (fun m => if m = k then s else g m) j := by
      intro j hj
      have : j ≠ k := fun e => absurd hj (Nat.not_lt.2 (e ▸ hk))
      simp [pos, this]
    exact fun c hc => ⟨a n l, a c (own n c hc).2⟩

private theorem pos_upd_ne (g : NodeId → NodeImpl T) {n m : NodeId} (f : NodeImpl T → NodeImpl T)
    (e : m ≠ n) : pos (upd g n f) m = pos g m := by simp [pos, upd, e]
private theorem pos_upd (g : NodeId → NodeImpl T) (n : NodeId) (f : NodeImpl T → NodeImpl T) :
    pos (upd g n f) n = (f (g n)).joint.position := by simp [pos, upd]

private theorem set_err {j : Joint T} {x : T} {e : KError T} (h : (j.setJointPosition x).2 = .error e) :
    (j.setJointPosition x).1 = j := (C01_err j x e h).1

variable {h : KHeap T} {own : MimicOwned h}

private theorem result_eq {n : NodeId} {s : NodeImpl T} (i : MimicStatic h n s) (l : n < h.next) (x : T) :
    (s.joint.setJointPosition x).2 = ((h.get n).joint.setJointPosition x).2 := by
  obtain ⟨a, b, c, -⟩ := i.data l
  exact setJointPosition_result_congr _ _ x a b c

private theorem static_set (n : NodeId) (x : T) :
    Pres (MimicStatic h) n fun s => { s with joint := (s.joint.setJointPosition x).1 } := fun s i =>
  ⟨i.mimicParent, i.mimicChildren, i.mimic, fun l => sameData_set _ _ _ (i.data l)⟩

/-- the position of `n` and those of the children in `done` follow `x` -/
private def Follow (h : KHeap T) (n : NodeId) (x : T) (done : List NodeId) (g : NodeId → NodeImpl T) : Prop :=
  n < h.next → (h.get n).mimicChildren ≠ [] → pos g n = x ∧
    ∀ c ∈ done, ∀ mi, (h.get c).mimic = some mi → pos g c = x * mi.multiplier + mi.origin

private theorem follow_stable {n : NodeId} {x : T} {done L : List NodeId} (hn : n ∈ L)
    (sub : n < h.next → ∀ c ∈ done, c ∈ (h.get n).mimicChildren) :
    (mimicGuard h own).Stable L (Follow h n x done) := by
  intro g g' e f l ne
  obtain ⟨k0, hk0⟩ := List.exists_mem_of_ne_nil _ ne
  obtain ⟨c, d⟩ := f l ne
  refine ⟨(e n hn l k0 hk0).1 ▸ c, fun k hk mi em => ?_⟩
  rw [← (e n hn l k (sub l k hk)).2]; exact d k hk mi em

private theorem rg_children (one : OneLevel h) (acc : FollowersAccept h) (n : NodeId) (x : T)
    (nm : n < h.next → (h.get n).mimicParent = none)
    (ok : n < h.next → ((h.get n).joint.setJointPosition x).2 = .ok ())
    (cs done : List NodeId) (e : done ++ cs = if n < h.next then (h.get n).mimicChildren else []) :
    Rg (mimicGuard h own) (MimicStatic h) (fun L _ => L = [n])
      (fun _ => (mimicGuard h own).inv n) (tryEach cs (Node.setMimicChild n x)) [n] (Follow h n x done) := by
  induction cs generalizing done with
  | nil =>
    refine ⟨rfl, fun g f l c hc mi em => ?_⟩
    rw [if_pos l, List.append_nil] at e
    obtain ⟨a, b⟩ := f l (List.ne_nil_of_mem hc)
    rw [a]; exact b c (e ▸ hc) mi em
  | cons c cs ih =>
    have l : n < h.next := by
      apply Classical.byContradiction; intro nl; rw [if_neg nl] at e; simp at e
    have hk : ∀ k ∈ done ++ c :: cs, k ∈ (h.get n).mimicChildren := fun k hk => by
      rw [e, if_pos l] at hk; exact hk
    have hc := hk c (by simp)
    obtain ⟨o1, o2, o3⟩ := one n c hc
    have lc := (own n c hc).2
    obtain ⟨mi, em⟩ := Option.isSome_iff_exists.1 o2
    have cn : c ≠ n := by rintro rfl; rw [o3] at o1; cases o1
    have nokids : (h.get c).mimicChildren = [] := by
      cases ek : (h.get c).mimicChildren with
      | nil => rfl
      | cons k ks => have := (one c k (by simp [ek])).2.2; rw [o1] at this; cases this
    have sub : ∀ k ∈ done ++ [c], k ∈ (h.get n).mimicChildren := fun k hk' => hk k (by
      rcases List.mem_append.1 hk' with h' | h'
      · exact List.mem_append.2 (.inl h')
      · rw [List.mem_singleton.1 h']; simp)
    refine Rg.bind (Q := fun L r => L = [n] ∧ r = .ok ()) (B := fun _ => Follow h n x (done ++ [c])) ?_ ?_
    · refine ⟨by simp, fun s hs => ?_⟩
      have es : s.mimic = some mi := (hs.mimic lc).trans em
      have acc' : (s.joint.setJointPosition (mi.mimicPosition x)).2 = .ok () := by
        rw [result_eq hs lc]; exact acc n c mi x hc em (ok l)
      have go : Rg (mimicGuard h own) (MimicStatic h) (fun L r => L = [n] ∧ r = Except.ok ())
          (fun _ => Follow h n x (done ++ [c])) (do
            doWrite c fun s => { s with joint := (s.joint.setJointPosition (mi.mimicPosition x)).1 }
            doUnlock c
            return (s.joint.setJointPosition (mi.mimicPosition x)).2 : KProg T _)
          [c, n] fun g => Follow h n x done g ∧ (mimicGuard h own).inv c g := ?_
      · show Rg _ _ _ _ (match s.mimic with | some m => _ | none => _) _ _
        rw [es]; exact go
      refine ⟨by simp, static_set c _, ?_, Follow h n x (done ++ [c]), ?_, ?_, ?_⟩
      · intro g gi _ m hm lm
        have hmc : m ≠ c := fun e => hm (by simp [e])
        have hmn : m ≠ n := fun e => hm (by simp [e])
        refine fun k hk' => ⟨(pos_upd_ne g _ hmc).symm, (pos_upd_ne g _ ?_).symm⟩
        rintro rfl
        have := (one m k hk').1
        rw [o1] at this; exact hmn (Option.some.inj this).symm
      · intro g gi a _ ne
        obtain ⟨f1, f2⟩ := a.1 l ne
        have w : ((g c).joint.setJointPosition (mi.mimicPosition x)).2 = .ok () := by
          rw [result_eq (gi c) lc]; exact acc n c mi x hc em (ok l)
        have pc : pos (upd g c fun s => { s with
            joint := (s.joint.setJointPosition (mi.mimicPosition x)).1 }) c = x * mi.multiplier + mi.origin := by
          rw [pos_upd]
          show ((g c).joint.setJointPosition (mi.mimicPosition x)).1.position = _
          rw [(C01_ok_effect _ _ w).1]; rfl
        refine ⟨(pos_upd_ne g _ (Ne.symm cn)).trans f1, fun k hk' mi' em' => ?_⟩
        by_cases kc : k = c
        · subst kc
          rw [em] at em'; rw [← Option.some.inj em']; exact pc
        · rw [pos_upd_ne g _ kc]
          refine f2 k ?_ mi' em'
          rcases List.mem_append.1 hk' with h' | h'
          · exact h'
          · exact absurd (List.mem_singleton.1 h') kc
      · exact follow_stable (by simp) fun _ => sub
      · refine ⟨by simp, fun g _ l' k hk' => ?_, Follow h n x (done ++ [c]), fun g f => f,
          follow_stable (by simp) fun _ => sub, ?_⟩
        · rw [nokids] at hk'; cases hk'
        · refine ⟨⟨by simp, acc'⟩, fun g f => f⟩
    · rintro L r ⟨rfl, rfl⟩
      exact ih (done ++ [c]) (by simpa using e)

private theorem rg_set (one : OneLevel h) (acc : FollowersAccept h) (n : NodeId) (x : T) :
    Rg (mimicGuard h own) (MimicStatic h) (fun L _ => L = []) (fun _ _ => True)
      (Node.setJointPosition n x) [] (fun _ => True) := by
  refine ⟨by simp, fun s hs => ?_⟩
  show Rg _ _ _ _ (if s.mimicParent.isSome then _ else _) _ _
  have stab : (mimicGuard h own).Stable [n] ((mimicGuard h own).inv n) := fun g g' e i =>
    (mimicGuard h own).keep n g g' (e n (by simp)) i
  have last : ∀ r : Except (KError T) Unit, Rg (mimicGuard h own) (MimicStatic h) (fun L _ => L = [])
      (fun _ _ => True) (do doUnlock n; return r : KProg T _) [n] ((mimicGuard h own).inv n) := fun r =>
    ⟨by simp, fun g i => i, fun _ => True, fun _ _ => trivial, fun _ _ _ _ => trivial,
      by simp, fun _ _ => trivial⟩
  split
  · exact (last _).strengthen fun g i => i.2
  · rename_i nm
    have nm : s.mimicParent = none := by simpa using nm
    have other : ∀ g : NodeId → NodeImpl T, ∀ f, ∀ m, m ∉ [n] → (mimicGuard h own).same m g (upd g n f) := by
      intro g f m hm lm
      have hmn : m ≠ n := fun e => hm (by simp [e])
      refine fun k hk => ⟨(pos_upd_ne g _ hmn).symm, (pos_upd_ne g _ ?_).symm⟩
      rintro rfl
      have := (one m k hk).1
      rw [← hs.mimicParent (own m k hk).2, nm] at this; cases this
    refine ⟨by simp, static_set n x, fun g _ _ m hm => other g _ m hm, ?_⟩
    cases er : (s.joint.setJointPosition x).2 with
    | error e =>
      refine ⟨(mimicGuard h own).inv n, fun g gi a => ?_, stab, last _⟩
      intro l
      have w : ((g n).joint.setJointPosition x).2 = .error e := by
        rw [result_eq (gi n) l, ← result_eq hs l]; exact er
      have same : ∀ k, pos (upd g n fun s => { s with joint := (s.joint.setJointPosition x).1 }) k
          = pos g k := by
        intro k
        by_cases kn : k = n
        · subst kn; rw [pos_upd]
          show ((g k).joint.setJointPosition x).1.position = _
          rw [set_err w]; rfl
        · exact pos_upd_ne g _ kn
      intro c hc mi em
      rw [same, same]; exact a.2 l c hc mi em
    | ok u =>
      refine ⟨Follow h n x [], fun g gi a l _ => ⟨?_, by simp⟩, follow_stable (by simp) (by simp), ?_⟩
      · have w : ((g n).joint.setJointPosition x).2 = .ok () := by
          rw [result_eq (gi n) l, ← result_eq hs l]; exact er
        rw [pos_upd]
        show ((g n).joint.setJointPosition x).1.position = _
        rw [(C01_ok_effect _ _ w).1]
      · show Rg _ _ _ _ (tryEach s.mimicChildren (Node.setMimicChild n x) >>= fun r => do
          doUnlock n; return r) _ _
        refine Rg.bind (rg_children one acc n x (fun l => by rw [← hs.mimicParent l]; exact nm)
          (fun l => by rw [← result_eq hs l]; exact er) _ [] (by rw [List.nil_append]; exact hs.mimicChildren)) ?_
        rintro L r rfl
        exact last r

private theorem rg_setAll (one : OneLevel h) (acc : FollowersAccept h) (c : Chain) (xs : List T) :
    Rg (mimicGuard h own) (MimicStatic h) (fun L _ => L = []) (fun _ _ => True)
      (c.setJointPositions xs) [] (fun _ => True) := by
  unfold Chain.setJointPositions
  split
  · exact ⟨rfl, fun _ _ => trivial⟩
  · generalize c.movableNodes.zip xs = l
    induction l with
    | nil => exact ⟨rfl, fun _ _ => trivial⟩
    | cons y l ih =>
      refine Rg.bind (rg_set one acc _ _) ?_
      rintro L r rfl
      cases r with
      | error e => exact ⟨rfl, fun _ _ => trivial⟩
      | ok u => exact ih

/-- updates that do not touch positions of joints that mimic or are mimicked -/
private def Quiet (h : KHeap T) (n : NodeId) (f : NodeImpl T → NodeImpl T) : Prop :=
  Pres (MimicStatic h) n f ∧ ((∀ s, (f s).joint.position = s.joint.position) ∨ NoMimic h n)

private theorem quiet_keeps (n : NodeId) (f : NodeImpl T → NodeImpl T) (q : Quiet h n f)
    (g : NodeId → NodeImpl T) (m : NodeId) : (mimicGuard h own).same m g (upd g n f) := by
  intro l c hc
  rcases q.2 with q | q
  · have all : ∀ k, pos g k = pos (upd g n f) k := by
      intro k
      by_cases e : k = n
      · rw [e, pos_upd, q]; rfl
      · rw [pos_upd_ne g f e]
    exact ⟨all m, all c⟩
  · refine ⟨(pos_upd_ne g f ?_).symm, (pos_upd_ne g f ?_).symm⟩
    · rintro rfl; rw [q.1] at hc; cases hc
    · rintro rfl; exact q.2 m hc

private theorem static_lock (one : OneLevel h) (own : MimicOwned h) (n : NodeId) (s : NodeImpl T)
    (i : MimicStatic h n s) :
    LockInv (fun c => ∃ m, c ∈ (h.get m).mimicChildren) (fun _ => False) (fun _ _ => True)
      (fun _ _ => True) n s := by
  refine ⟨?_, fun c hc => ?_, fun _ _ => trivial, False.elim⟩
  · rintro ⟨m, hm⟩
    obtain ⟨o1, o2, -⟩ := one m n hm
    have l := (own m n hm).2
    rw [i.mimicParent l, i.mimic l]
    exact ⟨by simp [o1], o2⟩
  · rw [i.mimicChildren] at hc
    split at hc
    · exact ⟨⟨n, hc⟩, fun _ => trivial⟩
    · cases hc

private theorem rg_call (one : OneLevel h) (acc : FollowersAccept h) {β : Type} (c : Call T β)
    (a : FollowingCall h c) :
    Rg (mimicGuard h own) (MimicStatic h) (fun L _ => L = []) (fun _ _ => True) c.prog []
      (fun _ => True) := by
  have rest : LockCall (fun _ => False) (fun _ _ => True) True (fun _ => True) c → c.Upd (Quiet h) →
      Rg (mimicGuard h own) (MimicStatic h) (fun L _ => L = []) (fun _ _ => True) c.prog []
        (fun _ => True) := by
    intro lc up
    have k := keep_call_of (A := fun _ _ => True) (pk := fun _ => True) (lo := h.next) (U := Quiet h)
      (static_lock one own)
      (fun j m hm => ⟨fun l => absurd l (Nat.not_lt.2 hm), by rw [if_neg (Nat.not_lt.2 hm)]; rfl,
        fun l => absurd l (Nat.not_lt.2 hm), fun l => absurd l (Nat.not_lt.2 hm)⟩)
      (fun _ => trivial) (fun _ _ _ => trivial) True (fun _ _ => True) (fun _ _ _ _ => trivial)
      (fun _ _ _ _ _ _ => trivial) (fun _ _ => trivial) c lc up
    exact (Lk.rg (Lk.mono k fun _ _ x => x.1) (fun _ _ q => q.1) fun n f q g _ m => quiet_keeps n f q g m).strengthen
      fun _ _ _ hm => by cases hm
  have keep : ∀ n (f : NodeImpl T → NodeImpl T), (∀ s, (f s).mimicParent = s.mimicParent ∧
      (f s).mimicChildren = s.mimicChildren ∧ (f s).mimic = s.mimic ∧ (f s).joint.position = s.joint.position ∧
      ∀ j, Joint.sameData j s.joint → j.sameData (f s).joint) → Quiet h n f := by
    intro n f e
    refine ⟨fun s i => ⟨fun l => ?_, ?_, fun l => ?_, fun l => (e s).2.2.2.2 _ (i.data l)⟩, .inl fun s => (e s).2.2.2.1⟩
    · rw [(e s).1]; exact i.mimicParent l
    · rw [(e s).2.1]; exact i.mimicChildren
    · rw [(e s).2.2.1]; exact i.mimic l
  cases c
  case setJointPosition n x => exact rg_set one acc n x
  case setJointPositions c xs => exact rg_setAll one acc c xs
  case setMimicParent => exact a.elim
  case updateVelocities => exact a.elim
  case cloneChain => exact a.elim
  case solve => exact a.elim
  case setJointPositionClamped n x =>
    refine rest trivial ⟨fun s i => ⟨i.mimicParent, i.mimicChildren, i.mimic, fun l => ?_⟩, .inr a⟩
    exact sameData_clamp _ _ _ (i.data l)
  case setJointPositionUnchecked n x =>
    exact rest trivial ⟨fun s i => ⟨i.mimicParent, i.mimicChildren, i.mimic, i.data⟩, .inr a⟩
  case setJointPositionsClamped c xs =>
    refine rest trivial fun n hn y _ => ⟨fun s i => ⟨i.mimicParent, i.mimicChildren, i.mimic, fun l => ?_⟩,
      .inr (a n hn)⟩
    exact sameData_clamp _ _ _ (i.data l)
  case setJointPositionsUnchecked c xs =>
    exact rest trivial fun n hn y _ => ⟨fun s i => ⟨i.mimicParent, i.mimicChildren, i.mimic, i.data⟩,
      .inr (a n hn)⟩
  all_goals refine rest (by simp [LockCall]) ?_
  case setParent n p => exact ⟨keep n _ fun s => ⟨rfl, rfl, rfl, rfl, fun _ d => d⟩,
      keep p _ fun s => ⟨rfl, rfl, rfl, rfl, fun _ d => d⟩⟩
  case removeParent n p => exact ⟨keep n _ fun s => ⟨rfl, rfl, rfl, rfl, fun _ d => d⟩,
      keep p _ fun s => ⟨rfl, rfl, rfl, rfl, fun _ d => d⟩⟩
  case setLink n k => exact keep n _ fun s => ⟨rfl, rfl, rfl, rfl, fun _ d => d⟩
  case setOrigin n t => exact keep n _ fun s => ⟨rfl, rfl, rfl, rfl, fun _ d => d⟩
  case chainSetOrigin c t => exact fun n _ => keep n _ fun s => ⟨rfl, rfl, rfl, rfl, fun _ d => d⟩
  case updateTransforms => exact fun n t => keep n _ fun s => ⟨rfl, rfl, rfl, rfl, fun _ d => d⟩
  case updateLinkTransforms => exact ⟨fun n t => keep n _ fun s => ⟨rfl, rfl, rfl, rfl, fun _ d => d⟩,
      fun n t => keep n _ fun s => ⟨rfl, rfl, rfl, rfl, fun _ d => d⟩⟩
  case jacobian => exact fun n t => keep n _ fun s => ⟨rfl, rfl, rfl, rfl, fun _ d => d⟩
  case centerOfMass => exact fun n t => keep n _ fun s => ⟨rfl, rfl, rfl, rfl, fun _ d => d⟩
  all_goals trivial

private theorem rg_client (one : OneLevel h) (acc : FollowersAccept h) (cl : Client T α)
    (a : cl.Only (FollowingCall h)) :
    Rg (mimicGuard h own) (MimicStatic h) (fun L _ => L = []) (fun _ _ => True) cl.prog []
      (fun _ => True) := by
  induction cl with
  | done x => exact ⟨rfl, fun _ _ => trivial⟩
  | call c k ih =>
    refine (rg_call one acc c a.1).bind ?_
    rintro L r rfl
    exact ih r (a.2 r)

/-- **C62**.  A master and its mimic children agree whenever the master is not locked: any number of
client threads, any interleaving of their individual steps, at any moment. -/
theorem C62_relation (h : KHeap T) (u : h.Unlocked) (one : OneLevel h) (own : MimicOwned h)
    (rel : MimicRelation h) (acc : FollowersAccept h) (ts : List (Client T α))
    (only : ∀ cl ∈ ts, cl.Only (FollowingCall h))
    (d : Config (NodeImpl T) α) (st : DSteps ⟨h, ts.map Client.prog⟩ d)
    (m c : NodeId) (mi : Mimic T) (free : d.heap.held m = false)
    (hc : c ∈ (d.heap.get m).mimicChildren) (hm : (d.heap.get c).mimic = some mi) :
    (d.heap.get c).joint.position = (d.heap.get m).joint.position * mi.multiplier + mi.origin := by
  have start : RInv (mimicGuard h own) (MimicStatic h) (fun L _ => L = []) (fun _ _ => True)
      ⟨h, ts.map Client.prog⟩ (fun _ => []) (fun _ _ => True) := by
    refine ⟨⟨Nat.le_refl _, fun n => ⟨fun _ => rfl, ?_, fun _ => rfl, fun _ => ⟨rfl, rfl, rfl, rfl⟩⟩⟩, ?_,
      fun _ => List.nodup_nil, fun _ _ _ x => (by cases x), fun n => by simp [u n], fun n _ l c hc mi e => ?_⟩
    · split
      · rfl
      · rename_i nl
        cases ek : (h.get n).mimicChildren with
        | nil => rfl
        | cons k ks => exact absurd (own n k (by simp [ek])).1 nl
    · intro i p hp
      obtain ⟨cl, hcl, rfl⟩ := List.mem_map.1 (List.mem_of_getElem? hp)
      exact ⟨rg_client one acc cl (only cl hcl), fun _ _ _ _ => trivial, trivial⟩
    · exact rel n c mi hc e
  obtain ⟨Ls, As, t⟩ := steps_rg st start
  have k := (t.heap.2 m).mimicChildren
  rw [k] at hc
  split at hc
  · rename_i l
    exact t.free m free l c hc mi (((t.heap.2 c).mimic (own m c hc).2) ▸ hm)
  · cases hc

/-- **C62**: the relation holds for all mimic joints when no lock is held, in particular when all
threads have finished. -/
theorem C62_quiescent (h : KHeap T) (u : h.Unlocked) (one : OneLevel h) (own : MimicOwned h)
    (rel : MimicRelation h) (acc : FollowersAccept h) (ts : List (Client T α))
    (only : ∀ cl ∈ ts, cl.Only (FollowingCall h))
    (d : Config (NodeImpl T) α) (st : DSteps ⟨h, ts.map Client.prog⟩ d) (ud : d.heap.Unlocked) :
    MimicRelation d.heap :=
  fun m c mi hc e => C62_relation h u one own rel acc ts only d st m c mi (ud m) hc e

/-! ## non-triviality -/

theorem exMimic_owned : MimicOwned exMimic := by
  intro m c hc
  have l := (exMimic_oneLevel m c hc).1
  have m0 : m = 0 := by
    by_cases m0 : m = 0
    · exact m0
    · simp [exMimic, m0] at hc
      split at hc
      · simp [NodeImpl.fresh] at hc
      · split at hc <;> simp [NodeImpl.fresh] at hc
  subst m0
  have : c = 1 ∨ c = 2 := by simpa [exMimic] using hc
  rcases this with rfl | rfl <;> decide

theorem exMimic_accept : FollowersAccept exMimic := by
  intro m c mi x hc _ _
  have := (exMimic_owned m c hc).2
  have : c = 0 ∨ c = 1 ∨ c = 2 := by
    have : c < 3 := this
    omega
  rcases this with rfl | rfl | rfl <;> rfl

/-- two threads that set the same master, and one that sets a whole chain -/
example (d : Config (NodeImpl ℝ) Unit)
    (st : DSteps ⟨exMimic, [Client.prog (.call (.setJointPosition 0 3) fun _ => .done ()),
      Client.prog (.call (.setJointPosition 0 4) fun _ => .done ()),
      Client.prog (.call (.setJointPositions ⟨[0, 1, 2], [0, 1, 2], 3⟩ [1, 2, 3]) fun _ => .done ())]⟩ d)
    (free : d.heap.held 0 = false) (hc : 1 ∈ (d.heap.get 0).mimicChildren)
    (hm : (d.heap.get 1).mimic = some ⟨-1, 1/2⟩) :
    (d.heap.get 1).joint.position = (d.heap.get 0).joint.position * -1 + 1/2 := by
  refine C62_relation exMimic (fun _ => rfl) exMimic_oneLevel exMimic_owned ?_ exMimic_accept
    [.call (.setJointPosition 0 3) fun _ => .done (), .call (.setJointPosition 0 4) fun _ => .done (),
      .call (.setJointPositions ⟨[0, 1, 2], [0, 1, 2], 3⟩ [1, 2, 3]) fun _ => .done ()] ?_ d st 0 1
    ⟨-1, 1/2⟩ free hc hm
  · exact exMimic_relation
  · intro cl hcl
    simp only [List.mem_cons, List.not_mem_nil, or_false] at hcl
    rcases hcl with rfl | rfl | rfl <;> exact ⟨trivial, fun _ => trivial⟩

/-- `exMimic` where the first mimic child may not leave [0, 1] -/
noncomputable def exShy : KHeap ℝ :=
  { exMimic with get := fun n => if n = 1 then
      { exMimic.get 1 with joint := { (exMimic.get 1).joint with limits := some ⟨0, 1⟩ } } else exMimic.get n }

/-- **C62**, why the children must accept what the master accepts: otherwise the relation is broken by
one failing `set_joint_position`, and stays broken when all locks are free. -/
theorem C62_needs_accept : exShy.Unlocked ∧ OneLevel exShy ∧ MimicOwned exShy ∧ MimicRelation exShy ∧
    ∃ e h', run (Node.setJointPosition 0 (3 : ℝ)) exShy = .ok (.error e) h' ∧ h'.Unlocked ∧
      ¬ MimicRelation h' := by
  have p : ∀ n, (exShy.get n).mimicParent = (exMimic.get n).mimicParent := fun n => by
    simp only [exShy]; split <;> simp_all
  have k : ∀ n, (exShy.get n).mimicChildren = (exMimic.get n).mimicChildren := fun n => by
    simp only [exShy]; split <;> simp_all
  have m : ∀ n, (exShy.get n).mimic = (exMimic.get n).mimic := fun n => by
    simp only [exShy]; split <;> simp_all
  have q : ∀ n, (exShy.get n).joint.position = (exMimic.get n).joint.position := fun n => by
    simp only [exShy]; split <;> simp_all
  have one : OneLevel exShy := fun a c hc => by
    rw [k] at hc; rw [p, p, m]; exact exMimic_oneLevel a c hc
  refine ⟨fun _ => rfl, one, fun a c hc => exMimic_owned a c (k a ▸ hc), fun a c mi hc e => ?_, ?_⟩
  · rw [k] at hc; rw [m] at e; rw [q, q]; exact exMimic_relation a c mi hc e
  · obtain ⟨e, he⟩ : ∃ e, ((exShy.get 1).joint.setJointPosition (Mimic.mimicPosition ⟨-1, 1/2⟩ 3)).2 = .error e := by
      have : ((exShy.get 1).joint.setJointPosition (Mimic.mimicPosition ⟨-1, 1/2⟩ 3)).2 ≠ .ok () := by
        intro ok
        have l : (0 : ℝ) ≤ 3 * -1 + 1/2 :=
          of_decide_eq_true (((C01_ok_iff _ _).1 ok).2 ⟨0, 1⟩ rfl).1
        norm_num at l
      cases e : ((exShy.get 1).joint.setJointPosition (Mimic.mimicPosition ⟨-1, 1/2⟩ 3)).2 with
      | error r => exact ⟨r, rfl⟩
      | ok u => exact absurd e this
    have e1 : (exShy.setJoint 0 3).get 1 = exShy.get 1 := setJoint_get_of_ne _ _ (by decide)
    have run : setPos 0 (3 : ℝ) exShy = (.error e, (exShy.setJoint 0 3).setJoint 1 (Mimic.mimicPosition ⟨-1, 1/2⟩ 3)) := by
      show mimicLoop (3 : ℝ) [1, 2] (exShy.setJoint 0 3) = _
      have : (((exShy.setJoint 0 3).get 1).joint.setJointPosition (Mimic.mimicPosition ⟨-1, 1/2⟩ 3)).2 = .error e := by
        rw [e1]; exact he
      have em : ((exShy.setJoint 0 3).get 1).mimic = some ⟨-1, 1/2⟩ := by
        rw [setJoint_get_mimic, m]; simp [exMimic]
      simp only [mimicLoop, em, this]
    have step := run_setJointPosition 0 (3 : ℝ) exShy (fun _ => rfl) one.mimicWF
    rw [run] at step
    refine ⟨e, _, step, fun _ => rfl, fun r => ?_⟩
    have w := r 0 1 ⟨-1, 1/2⟩ (by simp [setJoint_get_mimicChildren, k, exMimic])
      (by simp [setJoint_get_mimic, m, exMimic])
    rw [setJoint_get_joint, e1, set_err he, setJoint_get_of_ne _ _ (by decide : (0 : Nat) ≠ 1), setJoint_get_joint] at w
    have a : ((exShy.get 0).joint.setJointPosition 3).1.position = 3 := rfl
    have b : (exShy.get 1).joint.position = 1/2 := rfl
    rw [a, b] at w
    norm_num at w

end K
