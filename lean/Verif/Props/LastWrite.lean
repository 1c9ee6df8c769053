import Verif.Lemmas.LastWrite
import Verif.Model.RealScalar
/-!
# C96: of all the positions set, only the last one of each joint counts
-/

namespace K
open Prog

variable {T : Type} [Scalar T]

/-- **C96** (one client).  Position setters called one after the other, whatever they answer: every answer is
the one the call would give at the beginning, and in the end each node is as at the beginning except that its
joint is where the last write to it put it (with cleared caches), if there was one. -/
theorem C96_sequential (as : List (Setting T)) (h : KHeap T) (u : h.Unlocked) (wf : MimicWF h) :
    ∃ h', run (settings as) h = .ok (as.map (Setting.answer h)) h' ∧
      (∀ k, h'.get k = (h.get k).after (lastTo h k as)) ∧
      h'.next = h.next ∧ h'.dead = h.dead ∧ h'.held = h.held := by
  obtain ⟨r, h', e, s⟩ := settings_return as h u wf
  have key : ∀ k, r = as.map (Setting.answer h) ∧ h'.get k = (h.get k).after (lastTo h k as) := by
    intro k
    have t := does_settings (k := k) wf as (fun r L => r = as.map (Setting.answer h) ∧ L = []) [] ⟨rfl, rfl⟩
    rw [List.append_nil] at t
    obtain ⟨d, L', eL, ⟨er, rfl⟩, hg⟩ := t.run (o := none) (fun n => .inl rfl) rfl e
    rw [List.append_nil] at eL
    subst eL
    refine ⟨er, ?_⟩
    rw [hg, Option.or_none]; rfl
  refine ⟨h', ?_, fun k => (key k).2, s.next, s.dead, s.held⟩
  rw [e, (key 0).1]

/-- **C96** (only the last write counts).  Two sequences of calls whose last writes agree joint by joint leave
the same state behind. -/
theorem C96_same (as bs : List (Setting T)) (h : KHeap T) (u : h.Unlocked) (wf : MimicWF h)
    (e : ∀ k, lastTo h k as = lastTo h k bs) :
    ∃ h', run (settings as) h = .ok (as.map (Setting.answer h)) h' ∧
      run (settings bs) h = .ok (bs.map (Setting.answer h)) h' := by
  obtain ⟨h1, e1, g1, a1, b1, c1⟩ := C96_sequential as h u wf
  obtain ⟨h2, e2, g2, a2, b2, c2⟩ := C96_sequential bs h u wf
  have : h1 = h2 := by
    obtain ⟨get1, n1, d1, l1⟩ := h1
    obtain ⟨get2, n2, d2, l2⟩ := h2
    simp only at g1 g2 a1 b1 c1 a2 b2 c2
    have : get1 = get2 := funext fun k => by rw [g1, g2, e]
    subst this a1 b1 c1 a2 b2 c2
    rfl
  exact ⟨h1, e1, this ▸ e2⟩

theorem lastTo_append (h : KHeap T) (k : NodeId) (as bs : List (Setting T)) :
    lastTo h k (as ++ bs) = (lastTo h k bs).or (lastTo h k as) := by
  simp only [lastTo, List.flatMap_append, valuesTo_append, List.getLast?_append]

/-- the nodes a call writes -/
def Setting.touches (h : KHeap T) (a : Setting T) (k : NodeId) : Prop := ∃ x, (k, x) ∈ a.writes h

theorem valuesTo_eq_nil {k : NodeId} {ws : List (NodeId × T)} : valuesTo k ws = [] ↔ ∀ x, (k, x) ∉ ws := by
  simp only [valuesTo, List.filterMap_eq_nil_iff]
  constructor
  · intro a x hx
    have := a _ hx
    simp at this
  · rintro a ⟨n, x⟩ hw
    have : n ≠ k := fun e => a x (e ▸ hw)
    simp [this]

theorem lastTo_eq_none {h : KHeap T} {k : NodeId} {as : List (Setting T)} :
    lastTo h k as = none ↔ ∀ a ∈ as, ¬ a.touches h k := by
  rw [lastTo, List.getLast?_eq_none_iff, valuesTo_eq_nil]
  simp only [List.mem_flatMap, not_exists, not_and, Setting.touches]
  exact ⟨fun b a ha x hx => b x a ha hx, fun b x a ha hx => b a ha x hx⟩

/-- **C96** (order).  Two neighbouring calls that write different joints may be exchanged. -/
theorem C96_swap (as bs : List (Setting T)) (a b : Setting T) (h : KHeap T) (u : h.Unlocked) (wf : MimicWF h)
    (ne : ∀ k, ¬ (a.touches h k ∧ b.touches h k)) :
    ∃ h', run (settings (as ++ a :: b :: bs)) h = .ok ((as ++ a :: b :: bs).map (Setting.answer h)) h' ∧
      run (settings (as ++ b :: a :: bs)) h = .ok ((as ++ b :: a :: bs).map (Setting.answer h)) h' := by
  refine C96_same _ _ h u wf fun k => ?_
  have split : ∀ x y : Setting T, as ++ x :: y :: bs = (as ++ ([x] ++ [y])) ++ bs := by intros; simp
  rw [split, split]
  simp only [lastTo_append]
  by_cases ta : a.touches h k
  · have nb : lastTo h k [b] = none := lastTo_eq_none.2 fun c hc => by
      rw [List.mem_singleton.1 hc]; exact fun tb => ne k ⟨ta, tb⟩
    rw [nb, Option.none_or, Option.or_none]
  · have na : lastTo h k [a] = none := lastTo_eq_none.2 fun c hc => by
      rw [List.mem_singleton.1 hc]; exact ta
    rw [na, Option.none_or, Option.or_none]

/-- **C96** (overwritten).  A call may be left out if everything it writes is written again later; a call that
writes nothing, such as one that is refused, may always be left out. -/
theorem C96_overwritten (as bs : List (Setting T)) (a : Setting T) (h : KHeap T) (u : h.Unlocked) (wf : MimicWF h)
    (ov : ∀ k, a.touches h k → ∃ b ∈ bs, b.touches h k) :
    ∃ h', run (settings (as ++ a :: bs)) h = .ok ((as ++ a :: bs).map (Setting.answer h)) h' ∧
      run (settings (as ++ bs)) h = .ok ((as ++ bs).map (Setting.answer h)) h' := by
  refine C96_same _ _ h u wf fun k => ?_
  have split : as ++ a :: bs = (as ++ [a]) ++ bs := by simp
  rw [split]
  simp only [lastTo_append]
  cases l : lastTo h k bs with
  | some x => rfl
  | none =>
    have na : lastTo h k [a] = none := lastTo_eq_none.2 fun c hc => by
      rw [List.mem_singleton.1 hc]
      intro ta
      obtain ⟨b, hb, tb⟩ := ov k ta
      exact lastTo_eq_none.1 l b hb tb
    rw [na, Option.none_or]

/-! ## threads -/

/-- **C96** (meanwhile).  Any number of threads call position setters, each a sequence of its own.  At every
moment of every execution each node is as at the beginning, or as at the beginning but for its joint, which is
at a value that one of the calls writes to it; and a thread that has returned got the answers it would have got
at the beginning. -/
theorem C96_meanwhile (ass : List (List (Setting T))) (h : KHeap T) (wf : MimicWF h)
    (d : Config (NodeImpl T) (List (Except (KError T) Unit))) (s : Steps ⟨h, ass.map settings⟩ d) :
    (∀ k, d.heap.get k = h.get k ∨
      ∃ as ∈ ass, ∃ a ∈ as, ∃ x, (k, x) ∈ a.writes h ∧ d.heap.get k = (h.get k).movedTo x) ∧
    ∀ (i : Nat) (as : List (Setting T)) rs, ass[i]? = some as → d.threads[i]? = some (.ret rs) → rs = as.map (Setting.answer h) := by
  constructor
  · intro k
    obtain ⟨-, len, lenP, done, ld, la, f⟩ := (track_start h wf k ass).steps s
    rcases la with ⟨e, -⟩ | ⟨ds, hd, x, hx, e⟩
    · exact .inl e
    · right
      obtain ⟨i, lt, ei⟩ := List.getElem_of_mem hd
      have lt2 : i < ass.length := by simpa [ld] using lt
      have lt3 : i < d.threads.length := by rw [len]; simpa using lt2
      obtain ⟨L, eL, -⟩ := f i d.threads[i] _ _ ds (List.getElem?_eq_getElem lt3)
        (List.getElem?_eq_getElem (by simpa using lt2)) (List.getElem?_eq_getElem (by simpa using lt2))
        (by rw [List.getElem?_eq_getElem lt, ei])
      simp only [List.getElem_map] at eL
      have mem : x ∈ valuesTo k (ass[i].flatMap (Setting.writes h)) := by
        rw [eL]; exact List.mem_append_left _ (List.mem_of_getLast? hx)
      simp only [valuesTo, List.mem_filterMap, List.mem_flatMap] at mem
      obtain ⟨⟨n, y⟩, ⟨a, ha, hw⟩, ew⟩ := mem
      split at ew
      · next en =>
        cases ew
        simp only at en
        subst en
        exact ⟨ass[i], List.getElem_mem _, a, ha, _, hw, e⟩
      · cases ew
  · intro i as rs ha hr
    obtain ⟨-, len, lenP, done, ld, la, f⟩ := (track_start h wf 0 ass).steps s
    have lt : i < done.length := by
      rw [ld]; simpa using (List.getElem?_eq_some_iff.1 ha).1
    obtain ⟨L, -, t⟩ := f i _ (fun r L => r = as.map (Setting.answer h) ∧ L = []) _ _ hr
      (by simp [ha]) (by rw [List.getElem?_map, ha]; rfl) (List.getElem?_eq_getElem lt)
    exact t.1

/-- **C96** (in the end).  When all threads have returned, each joint that was written is where the last write
of one of the threads put it; nothing else has changed. -/
theorem C96_threads (ass : List (List (Setting T))) (h h' : KHeap T) (wf : MimicWF h)
    (rss : List (List (Except (KError T) Unit)))
    (s : Steps ⟨h, ass.map settings⟩ ⟨h', rss.map Prog.ret⟩) :
    rss = ass.map (fun as => as.map (Setting.answer h)) ∧
    ∀ k, (h'.get k = h.get k ∧ ∀ as ∈ ass, lastTo h k as = none) ∨
      ∃ as ∈ ass, ∃ x, lastTo h k as = some x ∧ h'.get k = (h.get k).movedTo x := by
  have len0 : rss.length = ass.length := by
    have := ((track_start h wf 0 ass).steps s).len
    simpa using this
  constructor
  · refine List.ext_getElem (by simp [len0]) fun i h1 h2 => ?_
    rw [List.getElem_map]
    have lt : i < ass.length := by simpa using h2
    exact (C96_meanwhile ass h wf _ s).2 i ass[i] rss[i] (List.getElem?_eq_getElem lt) (by simp [h1])
  · intro k
    obtain ⟨-, len, lenP, done, ld, la, f⟩ := (track_start h wf k ass).steps s
    have all : ∀ (i : Nat) (lt : i < ass.length) (lt' : i < done.length),
        done[i] = valuesTo k (ass[i].flatMap (Setting.writes h)) := by
      intro i lt lt'
      obtain ⟨L, eL, t⟩ := f i (.ret (rss[i]'(len0 ▸ lt)))
        (fun r L => r = ass[i].map (Setting.answer h) ∧ L = []) _ done[i]
        (by simp [len0, lt]) (by simp [lt]) (by rw [List.getElem?_map, List.getElem?_eq_getElem lt]; rfl)
        (List.getElem?_eq_getElem lt')
      rw [t.2, List.append_nil] at eL
      exact eL.symm
    rcases la with ⟨e, hn⟩ | ⟨ds, hd, x, hx, e⟩
    · refine .inl ⟨e, fun as ha => ?_⟩
      obtain ⟨i, lt, rfl⟩ := List.getElem_of_mem ha
      have lt' : i < done.length := by rw [ld]; simpa using lt
      rw [lastTo, ← all i lt lt', hn _ (List.getElem_mem _)]
      rfl
    · obtain ⟨i, lt', rfl⟩ := List.getElem_of_mem hd
      have lt : i < ass.length := by simpa [ld] using lt'
      exact .inr ⟨ass[i], List.getElem_mem _, x, by rw [lastTo, ← all i lt lt', hx], e⟩

/-! ## a concrete robot -/

noncomputable section

/-- joint 0 with two joints that follow it: joint 1 at twice its position, joint 2 at its position, but joint 2
goes no farther than 5 -/
def led : KHeap ℝ :=
  { get := fun n =>
      if n = 0 then { NodeImpl.fresh (Joint.new "m" (.linear (⟨1, 0, 0⟩ : V3 ℝ))) with mimicChildren := [1, 2] }
      else if n = 1 then { NodeImpl.fresh (Joint.new "a" (.linear (⟨1, 0, 0⟩ : V3 ℝ))) with
        mimicParent := some 0, mimic := some ⟨2, 0⟩ }
      else if n = 2 then { NodeImpl.fresh { Joint.new "b" (.linear (⟨1, 0, 0⟩ : V3 ℝ)) with limits := some ⟨0, 5⟩ } with
        mimicParent := some 0, mimic := some ⟨1, 0⟩ }
      else NodeImpl.fresh (Joint.new (T := ℝ) "f" .fixed)
    next := 3, dead := fun _ => false, held := fun _ => false }

theorem led_wf : MimicWF led := fun m c hc => by
  by_cases z : m = 0
  · subst z
    simp [led] at hc
    rcases hc with rfl | rfl <;> simp [led]
  · by_cases y : m = 1
    · subst y; simp [led, NodeImpl.fresh] at hc
    · by_cases x : m = 2
      · subst x; simp [led, NodeImpl.fresh] at hc
      · simp [led, NodeImpl.fresh, x, y, z] at hc

/-- what the calls write: a set of joint 0 to 3 moves all three; to 7, joint 2 refuses after the others have
moved; a set of a follower does nothing -/
theorem led_writes : (Setting.set 0 (3 : ℝ)).writes led = [(0, 3), (1, 6), (2, 3)] ∧
    (Setting.set 0 (7 : ℝ)).writes led = [(0, 7), (1, 14)] ∧
    (Setting.set 0 (7 : ℝ)).answer led = .error (.outOfLimit "b" 7 5 0) ∧
    (Setting.set 1 (4 : ℝ)).writes led = [] ∧ (Setting.clamp 2 (9 : ℝ)).writes led = [(2, 5)] := by
  refine ⟨?_, ?_, ?_, ?_, ?_⟩
  · simp [Setting.writes, setOne, follow, refusal, led, NodeImpl.fresh, Joint.new, Scalar.le]
    norm_num
  · simp [Setting.writes, setOne, follow, refusal, led, NodeImpl.fresh, Joint.new, Scalar.le]
    norm_num
  · simp [Setting.answer, setOne, follow, refusal, led, NodeImpl.fresh, Joint.new, Scalar.le]
    norm_num
  · simp [Setting.writes, setOne, led, NodeImpl.fresh]
  · simp [Setting.writes, clampOne, led, NodeImpl.fresh, Joint.new, Scalar.lt]
    norm_num

/-- a failing set, a clamped one and a set of a follower before a successful set of the master leave no trace -/
example : ∃ h', run (settings [.set 0 (7 : ℝ), .clamp 2 9, .set 1 4, .set 0 3]) led =
      .ok [.error (.outOfLimit "b" 7 5 0), .ok (), .ok (), .ok ()] h' ∧
    run (settings [.set 0 (3 : ℝ)]) led = .ok [.ok ()] h' ∧ (h'.get 1).joint.position = 6 := by
  obtain ⟨w1, w2, r2, w3, w4⟩ := led_writes
  have ok3 : (Setting.set 0 (3 : ℝ)).answer led = .ok () := by
    simp [Setting.answer, setOne, follow, refusal, led, NodeImpl.fresh, Joint.new, Scalar.le]
    norm_num
  have ok1 : (Setting.set 1 (4 : ℝ)).answer led = .ok () := by
    simp [Setting.answer, setOne, led, NodeImpl.fresh]
  have u : led.Unlocked := fun _ => rfl
  obtain ⟨h', e1, e2⟩ := C96_same [.set 0 (7 : ℝ), .clamp 2 9, .set 1 4, .set 0 3] [.set 0 (3 : ℝ)] led u led_wf
    fun k => by
      simp only [lastTo, List.flatMap_cons, List.flatMap_nil, w1, w2, w3, w4]
      by_cases z : 0 = k
      · subst z; simp [valuesTo]
      · by_cases y : 1 = k
        · subst y; simp [valuesTo]
        · by_cases x : 2 = k
          · subst x; simp [valuesTo]
          · simp [valuesTo, x, y, z]
  obtain ⟨h2, e3, g, -⟩ := C96_sequential [.set 0 (3 : ℝ)] led u led_wf
  rw [e2] at e3
  cases e3
  simp only [List.map_cons, List.map_nil, r2, ok3, ok1] at e1 e2
  refine ⟨h', e1, e2, ?_⟩
  rw [g 1]
  simp [lastTo, w1, valuesTo, NodeImpl.after, NodeImpl.movedTo]

/-- two threads set the master to 3 and a follower, unchecked, to 8: the follower ends at 6 or at 8 -/
example (h' : KHeap ℝ) (rss : List (List (Except (KError ℝ) Unit)))
    (s : Steps ⟨led, [[.set 0 (3 : ℝ)], [.put 1 (8 : ℝ)]].map settings⟩ ⟨h', rss.map Prog.ret⟩) :
    (h'.get 0).joint.position = 3 ∧ ((h'.get 1).joint.position = 6 ∨ (h'.get 1).joint.position = 8) := by
  obtain ⟨w1, -⟩ := led_writes
  have w2 : (Setting.put 1 (8 : ℝ)).writes led = [(1, 8)] := rfl
  obtain ⟨-, e⟩ := C96_threads _ led h' led_wf rss s
  have e0 := e 0
  have e1 := e 1
  simp only [List.mem_cons, List.not_mem_nil, or_false, forall_eq_or_imp, forall_eq, exists_eq_or_imp,
    exists_eq_left, lastTo, List.flatMap_cons, List.flatMap_nil, w1, w2] at e0 e1
  simp [valuesTo] at e0 e1
  constructor
  · rw [e0]; rfl
  · rcases e1 with e1 | e1
    · left; rw [e1]; rfl
    · right; rw [e1]; rfl

end

end K
