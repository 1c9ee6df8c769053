import Verif.Lemmas.Deriv
/-!
# The velocity of the end of a chain whose joints all move
-/

namespace K

noncomputable section

/-- at time `t` the moving frame `M` has the velocity `v` of its origin and the angular velocity `w` -/
def Iso.HasTwist (M : ℝ → Iso ℝ) (v w : V3 ℝ) (t : ℝ) : Prop :=
  V3.HasDeriv (fun s => (M s).trans) v t ∧
    ∀ u, V3.HasDeriv (fun s => (M s).rot.rotate u) (w.cross ((M t).rot.rotate u)) t

theorem V3.HasDeriv.add {f g : ℝ → V3 ℝ} {a b : V3 ℝ} {t : ℝ} (hf : V3.HasDeriv f a t)
    (hg : V3.HasDeriv g b t) : V3.HasDeriv (fun s => (f s).add (g s)) (a.add b) t :=
  ⟨hf.1.add hg.1, hf.2.1.add hg.2.1, hf.2.2.add hg.2.2⟩

theorem V3.HasDeriv.comp {f : ℝ → V3 ℝ} {a : V3 ℝ} {p : ℝ → ℝ} {r t x : ℝ} (hx : p t = x)
    (hf : V3.HasDeriv f a x) (hp : HasDerivAt p r t) :
    V3.HasDeriv (fun s => f (p s)) (a.scale r) t := by
  subst hx
  exact ⟨hf.1.comp t hp, hf.2.1.comp t hp, hf.2.2.comp t hp⟩

theorem V3.HasDeriv.congr_deriv {f : ℝ → V3 ℝ} {a b : V3 ℝ} {t : ℝ} (hf : V3.HasDeriv f a t)
    (e : a = b) : V3.HasDeriv f b t := e ▸ hf

theorem V3.HasDeriv.scale_moving {f : ℝ → V3 ℝ} {a : V3 ℝ} {g : ℝ → ℝ} {b t : ℝ}
    (hf : V3.HasDeriv f a t) (hg : HasDerivAt g b t) :
    V3.HasDeriv (fun s => (f s).scale (g s)) ((a.scale (g t)).add ((f t).scale b)) t :=
  ⟨hf.1.mul hg, hf.2.1.mul hg, hf.2.2.mul hg⟩

/-- a moving vector seen from a turning frame -/
theorem V3.HasDeriv.rotate_moving {q : ℝ → Quat ℝ} {w : V3 ℝ} {t : ℝ}
    (hq : ∀ u, V3.HasDeriv (fun s => (q s).rotate u) (w.cross ((q t).rotate u)) t) {n : ℝ → V3 ℝ}
    {n' : V3 ℝ} (hn : V3.HasDeriv n n' t) :
    V3.HasDeriv (fun s => (q s).rotate (n s))
      ((w.cross ((q t).rotate (n t))).add ((q t).rotate n')) t := by
  have dec : ∀ (p : Quat ℝ) (v : V3 ℝ), p.rotate v =
      (((p.rotate ⟨1, 0, 0⟩).scale v.x).add ((p.rotate ⟨0, 1, 0⟩).scale v.y)).add
        ((p.rotate ⟨0, 0, 1⟩).scale v.z) := by
    intro p v
    ext <;> simp only [Quat.rotate, V3.cross, V3.add, V3.scale, Quat.vec] <;> ring
  have e : (fun s => (q s).rotate (n s)) = fun s =>
      ((((q s).rotate ⟨1, 0, 0⟩).scale (n s).x).add (((q s).rotate ⟨0, 1, 0⟩).scale (n s).y)).add
        (((q s).rotate ⟨0, 0, 1⟩).scale (n s).z) := funext fun s => dec _ _
  rw [e, dec (q t) (n t), dec (q t) n']
  refine (((hq ⟨1, 0, 0⟩).scale_moving hn.1).add ((hq ⟨0, 1, 0⟩).scale_moving hn.2.1)).add
    ((hq ⟨0, 0, 1⟩).scale_moving hn.2.2) |>.congr_deriv ?_
  ext <;> simp only [V3.cross, V3.add, V3.scale] <;> ring

theorem Iso.HasTwist.mul {M N : ℝ → Iso ℝ} {v w v' w' : V3 ℝ} {t : ℝ} (hM : Iso.HasTwist M v w t)
    (hN : Iso.HasTwist N v' w' t) (rM : ∀ s, (M s).IsRigid) (rN : ∀ s, (N s).IsRigid) :
    Iso.HasTwist (fun s => (M s).mul (N s))
      (v.add ((w.cross ((M t).rot.rotate (N t).trans)).add ((M t).rot.rotate v')))
      (w.add ((M t).rot.rotate w')) t := by
  refine ⟨?_, fun u => ?_⟩
  · exact hM.1.add (V3.HasDeriv.rotate_moving hM.2 hN.1)
  · have e : (fun s => ((M s).mul (N s)).rot.rotate u) =
        fun s => (M s).rot.rotate ((N s).rot.rotate u) := funext fun s => Quat.rotate_mul (rM s) (rN s) u
    rw [e]
    refine (V3.HasDeriv.rotate_moving hM.2 (hN.2 u)).congr_deriv ?_
    show _ = V3.cross _ ((Quat.mul (M t).rot (N t).rot).rotate u)
    rw [Quat.rotate_mul (rM t) (rN t), ← Quat.rotate_cross (rM t)]
    ext <;> simp only [V3.cross, V3.add] <;> ring

theorem Iso.hasTwist_const (X : Iso ℝ) (t : ℝ) : Iso.HasTwist (fun _ => X) V3.zero V3.zero t :=
  ⟨V3.hasDeriv_const _ _, fun u => (V3.hasDeriv_const _ _).congr_deriv (by
    ext <;> simp [V3.cross, V3.zero])⟩

/-- linear and angular part of the column of a joint with world pose `X`, for the point `pn` -/
def colLin (pn : V3 ℝ) (j : Joint ℝ) (X : Iso ℝ) : V3 ℝ :=
  match j.jointType with
  | .fixed => V3.zero
  | .linear a => X.rot.rotate a
  | .rotational a => (X.rot.rotate a).cross (pn.sub X.trans)
/-- angular part -/
def colAng (j : Joint ℝ) (X : Iso ℝ) : V3 ℝ :=
  match j.jointType with
  | .fixed => V3.zero
  | .linear _ => V3.zero
  | .rotational a => X.rot.rotate a

/-- the local transform of a joint whose position moves at the rate `r` -/
theorem Joint.hasTwist {j : Joint ℝ} (hj : j.IsRigid) {p : ℝ → ℝ} {r t : ℝ} (hx : p t = j.position)
    (hp : HasDerivAt p r t) :
    Iso.HasTwist (fun s => (j.at (p s)).localTransform)
      ((colLin j.localTransform.trans j j.localTransform).scale r)
      ((colAng j j.localTransform).scale r) t := by
  have hat : j.at (p t) = j := by rw [hx]; rfl
  by_cases fx : j.jointType = .fixed
  · have c : ∀ x, (j.at x).localTransform = j.localTransform := by
      intro x
      have fx' : (j.at x).jointType = .fixed := fx
      simp only [Joint.localTransform, Joint.jointTransform, fx, fx']
      rfl
    simp only [c, colLin, colAng, fx]
    have z : V3.zero.scale r = V3.zero := by ext <;> simp [V3.scale, V3.zero]
    rw [z]
    exact Iso.hasTwist_const _ _
  · have ok : jacobianColumn j.localTransform.trans j (Iso.one.mul j.localTransform) =
        .ok [(colLin j.localTransform.trans j j.localTransform).x,
          (colLin j.localTransform.trans j j.localTransform).y,
          (colLin j.localTransform.trans j j.localTransform).z,
          (colAng j j.localTransform).x, (colAng j j.localTransform).y,
          (colAng j j.localTransform).z] := by
      rw [Iso.one_mul']
      unfold jacobianColumn colLin colAng
      cases e : j.jointType with
      | fixed => exact absurd e fx
      | linear a => simp [V3.zero]
      | rotational a => rfl
    obtain ⟨d, w, e, hd, hw⟩ := column_deriv Iso.one Iso.one j Iso.one_isRigid Iso.one_isRigid hj _ _ ok
    simp only [Iso.one_mul', Iso.mul_one'] at e hd hw
    have hwe : w = colAng j j.localTransform := by
      simp only [List.cons.injEq] at e
      exact V3.ext e.2.2.2.1.symm e.2.2.2.2.1.symm e.2.2.2.2.2.1.symm
    have hde : d = colLin j.localTransform.trans j j.localTransform := by
      simp only [List.cons.injEq] at e
      have z : d.add (w.cross (j.localTransform.trans.sub j.localTransform.trans)) = d := by
        ext <;> simp [V3.add, V3.cross, V3.sub]
      rw [z] at e
      exact V3.ext e.1.symm e.2.1.symm e.2.2.1.symm
    subst hwe; subst hde
    refine ⟨V3.HasDeriv.comp hx hd hp, fun u => (V3.HasDeriv.comp hx (hw u) hp).congr_deriv ?_⟩
    show _ = V3.cross _ (((j.at (p t)).localTransform).rot.rotate u)
    rw [hat]
    ext <;> simp only [V3.cross, V3.scale] <;> ring

theorem colAng_mul {X L : Iso ℝ} (rX : X.IsRigid) (rL : L.IsRigid) (j : Joint ℝ) :
    colAng j (X.mul L) = X.rot.rotate (colAng j L) := by
  unfold colAng
  cases j.jointType with
  | fixed => exact (Quat.rotate_zero _).symm
  | linear a => exact (Quat.rotate_zero _).symm
  | rotational a => exact Quat.rotate_mul rX rL a

theorem colLin_mul {X L : Iso ℝ} (rX : X.IsRigid) (rL : L.IsRigid) (j : Joint ℝ) (pn : V3 ℝ) :
    colLin pn j (X.mul L) = (X.rot.rotate (colLin L.trans j L)).add
      ((colAng j (X.mul L)).cross (pn.sub (X.mul L).trans)) := by
  have z : ∀ a : V3 ℝ, V3.zero.cross a = V3.zero := by
    intro a; ext <;> simp [V3.cross, V3.zero]
  unfold colLin colAng
  cases j.jointType with
  | fixed => simp only [Quat.rotate_zero, z, V3.add_zero']
  | linear a =>
    simp only [z, V3.add_zero']
    exact Quat.rotate_mul rX rL a
  | rotational a =>
    have e : (L.rot.rotate a).cross (L.trans.sub L.trans) = V3.zero := by
      ext <;> simp [V3.cross, V3.sub, V3.zero]
    simp only [e, Quat.rotate_zero, V3.zero_add']

/-- sum over the nodes of rate times column; `X` is the pose of the node before the list -/
def totLin (J : NodeId → Joint ℝ) (r : NodeId → ℝ) (pn : V3 ℝ) : Iso ℝ → List NodeId → V3 ℝ
  | _, [] => V3.zero
  | X, n :: ns => ((colLin pn (J n) (X.mul (J n).localTransform)).scale (r n)).add
      (totLin J r pn (X.mul (J n).localTransform) ns)
/-- angular part -/
def totAng (J : NodeId → Joint ℝ) (r : NodeId → ℝ) : Iso ℝ → List NodeId → V3 ℝ
  | _, [] => V3.zero
  | X, n :: ns => ((colAng (J n) (X.mul (J n).localTransform)).scale (r n)).add
      (totAng J r (X.mul (J n).localTransform) ns)

/-- the product of the local transforms with the joint `n` at position `p n` -/
def prodAt (J : NodeId → Joint ℝ) (p : NodeId → ℝ) (X : Iso ℝ) (ns : List NodeId) : Iso ℝ :=
  ns.foldl (fun T n => T.mul ((J n).at (p n)).localTransform) X

theorem prodAt_twist (J : NodeId → Joint ℝ) (p : NodeId → ℝ → ℝ) (r : NodeId → ℝ) (t : ℝ)
    (ns : List NodeId) (hj : ∀ n ∈ ns, (J n).IsRigid) (hx : ∀ n ∈ ns, p n t = (J n).position)
    (hp : ∀ n ∈ ns, HasDerivAt (p n) (r n) t) (X : ℝ → Iso ℝ) (v w : V3 ℝ)
    (hX : Iso.HasTwist X v w t) (rX : ∀ s, (X s).IsRigid) (pn : V3 ℝ)
    (hpn : pn = (prodAt J (fun n => p n t) (X t) ns).trans) :
    Iso.HasTwist (fun s => prodAt J (fun n => p n s) (X s) ns)
      ((v.add (w.cross (pn.sub (X t).trans))).add (totLin J r pn (X t) ns))
      (w.add (totAng J r (X t) ns)) t := by
  induction ns generalizing X v w with
  | nil =>
    subst hpn
    have e1 : (v.add (w.cross ((prodAt J (fun n => p n t) (X t) []).trans.sub (X t).trans))).add
        (totLin J r (prodAt J (fun n => p n t) (X t) []).trans (X t) []) = v := by
      ext <;> simp [prodAt, totLin, V3.add, V3.cross, V3.sub, V3.zero]
    have e2 : w.add (totAng J r (X t) []) = w := by
      ext <;> simp [totAng, V3.add, V3.zero]
    rw [e1, e2]
    exact hX
  | cons n ns ih =>
    have hl := Joint.hasTwist (hj n (by simp)) (hx n (by simp)) (hp n (by simp))
    have rl : ∀ s, ((J n).at (p n s)).localTransform.IsRigid := fun s =>
      Joint.localTransform_isRigid ((hj n (by simp)).at _)
    have hat : (J n).at (p n t) = J n := by rw [hx n (by simp)]; rfl
    have step := hX.mul hl rX rl
    have := ih (fun m hm => hj m (by simp [hm])) (fun m hm => hx m (by simp [hm]))
      (fun m hm => hp m (by simp [hm])) _ _ _ step (fun s => (rX s).mul (rl s)) hpn
    refine (show Iso.HasTwist _ _ _ t from this) |> fun h => ?_
    have key : ∀ (v' w' : V3 ℝ), v' = (v.add (w.cross (pn.sub (X t).trans))).add
        (totLin J r pn (X t) (n :: ns)) → w' = w.add (totAng J r (X t) (n :: ns)) →
        Iso.HasTwist (fun s => prodAt J (fun n => p n s) (X s) (n :: ns)) v' w' t →
        Iso.HasTwist (fun s => prodAt J (fun n => p n s) (X s) (n :: ns))
          ((v.add (w.cross (pn.sub (X t).trans))).add (totLin J r pn (X t) (n :: ns)))
          (w.add (totAng J r (X t) (n :: ns))) t := by
      rintro _ _ rfl rfl h; exact h
    refine key _ _ ?_ ?_ h
    · have rL := Joint.localTransform_isRigid (hj n (by simp))
      have e1 := colLin_mul (rX t) rL (J n) pn
      have e2 := colAng_mul (rX t) rL (J n)
      rw [hat, Quat.rotate_scale, Quat.rotate_scale, ← e2]
      have e3 : (X t).rot.rotate (colLin (J n).localTransform.trans (J n) (J n).localTransform) =
          (colLin pn (J n) ((X t).mul (J n).localTransform)).sub
            ((colAng (J n) ((X t).mul (J n).localTransform)).cross
              (pn.sub ((X t).mul (J n).localTransform).trans)) := by
        rw [e1]; ext <;> simp [V3.add, V3.sub]
      rw [e3]
      show _ = (v.add (w.cross (pn.sub (X t).trans))).add
        (((colLin pn (J n) ((X t).mul (J n).localTransform)).scale (r n)).add
          (totLin J r pn ((X t).mul (J n).localTransform) ns))
      have e4 : ((X t).mul (J n).localTransform).trans =
          (X t).trans.add ((X t).rot.rotate (J n).localTransform.trans) := rfl
      rw [e4]
      generalize (X t).rot.rotate (J n).localTransform.trans = y
      generalize colLin pn (J n) ((X t).mul (J n).localTransform) = l
      generalize colAng (J n) ((X t).mul (J n).localTransform) = a
      generalize totLin J r pn ((X t).mul (J n).localTransform) ns = z
      ext <;> simp only [V3.add, V3.sub, V3.cross, V3.scale] <;> ring
    · have rL := Joint.localTransform_isRigid (hj n (by simp))
      rw [hat, Quat.rotate_scale, ← colAng_mul (rX t) rL (J n)]
      exact V3.add_assoc' _ _ _

end
end K
