import Mathlib.Analysis.Calculus.FDeriv.Basic
import Mathlib.Analysis.Calculus.FDeriv.Mul
import Mathlib.Analysis.Calculus.FDeriv.Pi
import Mathlib.Analysis.Calculus.DSlope
import Mathlib.Analysis.Calculus.MeanValue
import Mathlib.Analysis.Calculus.Deriv.MeanValue
import Mathlib.Analysis.SpecialFunctions.Trigonometric.InverseDeriv
import Mathlib.Analysis.SpecialFunctions.Trigonometric.Bounds
/-!
# Damped Newton steps near a zero, and the angle of a small rotation
-/

namespace K
open Filter Topology

section newton
variable {V W : Type*} [NormedAddCommGroup V] [NormedSpace ℝ V] [NormedAddCommGroup W] [NormedSpace ℝ W]

/-- Near a zero `x0` of `F`, steps `d` which nearly solve `F x + L d = 0`, with `L` the derivative at `x0`, and
are bounded by a multiple of `F x`, reduce `F` by a constant factor when multiplied by a number between 0
and 2. -/
theorem newton_contracts {F : V → W} {L : V →L[ℝ] W} {x0 : V} (hF : HasStrictFDerivAt F L x0)
    (z : F x0 = 0) {m C : ℝ} (m0 : 0 < m) (m2 : m < 2) (C0 : 0 ≤ C) (Step : V → V → Prop)
    (close : ∀ η > 0, ∀ᶠ x in 𝓝 x0, ∀ d, Step x d → ‖F x + L d‖ ≤ η * ‖F x‖)
    (bound : ∀ᶠ x in 𝓝 x0, ∀ d, Step x d → ‖d‖ ≤ C * ‖F x‖) :
    ∃ ρ, 0 ≤ ρ ∧ ρ < 1 ∧ ∀ᶠ x in 𝓝 x0, ∀ d, Step x d → ‖F (x + m • d)‖ ≤ ρ * ‖F x‖ := by
  have a1 : |1 - m| < 1 := by rw [abs_lt]; constructor <;> linarith
  set θ := 1 - |1 - m| with hθ
  have θ0 : 0 < θ := by linarith
  have cpos : 0 < θ / (4 * (m * C + 1)) := by positivity
  refine ⟨1 - θ / 2, by have := abs_nonneg (1 - m); linarith, by linarith, ?_⟩
  have lo := hF.isLittleO.bound cpos
  have cont : Tendsto (fun x => ‖F x‖) (𝓝 x0) (𝓝 0) := by
    have := hF.continuousAt.norm
    rw [ContinuousAt, z, norm_zero] at this
    exact this
  rw [nhds_prod_eq, eventually_prod_iff] at lo
  obtain ⟨pa, ha, pb, hb, hab⟩ := lo
  obtain ⟨r, r0, hr⟩ := Metric.eventually_nhds_iff.1 ha
  have small : ∀ᶠ x in 𝓝 x0, m * (C * ‖F x‖) < r / 2 := by
    have : Tendsto (fun x => m * (C * ‖F x‖)) (𝓝 x0) (𝓝 (m * (C * 0))) :=
      (cont.const_mul C).const_mul m
    rw [mul_zero, mul_zero] at this
    exact this.eventually_lt_const (by linarith)
  have near : ∀ᶠ x in 𝓝 x0, dist x x0 < r / 2 := Metric.eventually_nhds_iff.2 ⟨r / 2, by linarith, fun _ h => h⟩
  filter_upwards [close (θ / (4 * m)) (by positivity), bound, hb, small, near] with x h1 h2 h3 h4 h5 d hd
  have e1 := h1 d hd
  have e2 := h2 d hd
  have md : ‖m • d‖ ≤ m * (C * ‖F x‖) := by
    rw [norm_smul, Real.norm_of_nonneg m0.le]
    exact mul_le_mul_of_nonneg_left e2 m0.le
  have inr : dist (x + m • d) x0 < r := by
    have : dist (x + m • d) x0 ≤ dist (x + m • d) x + dist x x0 := dist_triangle _ _ _
    rw [dist_eq_norm (x + m • d) x, add_sub_cancel_left] at this
    linarith
  have e3 := hab (hr inr) h3
  simp only [add_sub_cancel_left] at e3
  have split : F (x + m • d) = (1 - m) • F x + m • (F x + L d) + (F (x + m • d) - F x - L (m • d)) := by
    rw [map_smul, sub_smul, one_smul, smul_add]; abel
  rw [split]
  have n1 : ‖(1 - m) • F x‖ = |1 - m| * ‖F x‖ := by rw [norm_smul, Real.norm_eq_abs]
  have n2 : ‖m • (F x + L d)‖ ≤ θ / 4 * ‖F x‖ := by
    rw [norm_smul, Real.norm_of_nonneg m0.le]
    calc m * ‖F x + L d‖ ≤ m * (θ / (4 * m) * ‖F x‖) := mul_le_mul_of_nonneg_left e1 m0.le
      _ = θ / 4 * ‖F x‖ := by field_simp
  have n3 : ‖F (x + m • d) - F x - L (m • d)‖ ≤ θ / 4 * ‖F x‖ := by
    refine e3.trans ((mul_le_mul_of_nonneg_left md cpos.le).trans ?_)
    have : θ / (4 * (m * C + 1)) * (m * C) ≤ θ / 4 := by
      rw [div_mul_eq_mul_div, div_le_div_iff₀ (by positivity) (by norm_num)]
      nlinarith [mul_nonneg m0.le C0]
    calc θ / (4 * (m * C + 1)) * (m * (C * ‖F x‖)) = θ / (4 * (m * C + 1)) * (m * C) * ‖F x‖ := by ring
      _ ≤ θ / 4 * ‖F x‖ := mul_le_mul_of_nonneg_right this (norm_nonneg _)
  calc _ ≤ ‖(1 - m) • F x‖ + ‖m • (F x + L d)‖ + ‖F (x + m • d) - F x - L (m • d)‖ := norm_add₃_le
    _ ≤ |1 - m| * ‖F x‖ + θ / 4 * ‖F x‖ + θ / 4 * ‖F x‖ := by rw [n1]; linarith
    _ = (1 - θ / 2) * ‖F x‖ := by rw [hθ]; ring

/-- a function with a zero, times a Lipschitz function with the value 1 there, has the same derivative -/
theorem strict_mul_lipschitz {f g : V → ℝ} {f' : V →L[ℝ] ℝ} {x0 : V} (hf : HasStrictFDerivAt f f' x0)
    (f0 : f x0 = 0) (g0 : g x0 = 1) {K : ℝ}
    (lip : ∀ᶠ p : V × V in 𝓝 (x0, x0), |g p.1 - g p.2| ≤ K * ‖p.1 - p.2‖) :
    HasStrictFDerivAt (fun x => f x * g x) f' x0 := by
  refine .of_isLittleO ?_
  rw [Asymptotics.isLittleO_iff]
  intro c c0
  have lip1 : ∀ᶠ x in 𝓝 x0, |g x - 1| ≤ K * ‖x - x0‖ := by
    have : Tendsto (fun x => (x, x0)) (𝓝 x0) (𝓝 (x0, x0)) :=
      (continuous_id.prodMk continuous_const).tendsto x0
    have := this.eventually lip
    simpa only [g0] using this
  have k1 : Tendsto (fun x => K * ‖x - x0‖) (𝓝 x0) (𝓝 0) := by
    have : ContinuousAt (fun x => K * ‖x - x0‖) x0 := by fun_prop
    simpa [ContinuousAt] using this
  have g2 : ∀ᶠ x in 𝓝 x0, |g x| ≤ 2 := by
    filter_upwards [lip1, k1.eventually_lt_const (show (0 : ℝ) < 1 by norm_num)] with x h1 h2
    have := abs_sub_abs_le_abs_sub (g x) 1
    rw [abs_one] at this; linarith
  have fp : 0 < ‖f'‖ + 1 := by positivity
  have g3 : ∀ᶠ x in 𝓝 x0, |g x - 1| ≤ c / 4 / (‖f'‖ + 1) := by
    filter_upwards [lip1, k1.eventually_lt_const (show (0 : ℝ) < c / 4 / (‖f'‖ + 1) by positivity)] with x h1 h2
    linarith
  have f3 : ∀ᶠ x in 𝓝 x0, |f x| * K ≤ c / 4 := by
    have : ContinuousAt (fun x => |f x| * K) x0 := (hf.continuousAt.abs).mul continuousAt_const
    have : Tendsto (fun x => |f x| * K) (𝓝 x0) (𝓝 0) := by
      simpa [ContinuousAt, f0] using this
    filter_upwards [this.eventually_lt_const (show (0 : ℝ) < c / 4 by positivity)] with x h using h.le
  have up : ∀ {P : V → Prop}, (∀ᶠ x in 𝓝 x0, P x) → ∀ᶠ p : V × V in 𝓝 (x0, x0), P p.1 :=
    fun h => (continuous_fst.tendsto (x0, x0)).eventually h
  have up2 : ∀ {P : V → Prop}, (∀ᶠ x in 𝓝 x0, P x) → ∀ᶠ p : V × V in 𝓝 (x0, x0), P p.2 :=
    fun h => (continuous_snd.tendsto (x0, x0)).eventually h
  filter_upwards [hf.isLittleO.bound (show 0 < c / 4 by positivity), lip, up g2, up g3, up2 f3]
    with p h1 h2 h3 h4 h5
  have split : f p.1 * g p.1 - f p.2 * g p.2 - f' (p.1 - p.2) =
      (f p.1 - f p.2 - f' (p.1 - p.2)) * g p.1 + f' (p.1 - p.2) * (g p.1 - 1) +
        f p.2 * (g p.1 - g p.2) := by ring
  rw [Real.norm_eq_abs] at h1 ⊢
  rw [split]
  have t1 : |(f p.1 - f p.2 - f' (p.1 - p.2)) * g p.1| ≤ c / 2 * ‖p.1 - p.2‖ := by
    rw [abs_mul]
    calc _ ≤ (c / 4 * ‖p.1 - p.2‖) * 2 := mul_le_mul h1 h3 (abs_nonneg _) (by positivity)
      _ = _ := by ring
  have t2 : |f' (p.1 - p.2) * (g p.1 - 1)| ≤ c / 4 * ‖p.1 - p.2‖ := by
    rw [abs_mul]
    have : |f' (p.1 - p.2)| ≤ (‖f'‖ + 1) * ‖p.1 - p.2‖ := by
      have := f'.le_opNorm (p.1 - p.2)
      rw [Real.norm_eq_abs] at this
      nlinarith [norm_nonneg (p.1 - p.2)]
    calc _ ≤ ((‖f'‖ + 1) * ‖p.1 - p.2‖) * (c / 4 / (‖f'‖ + 1)) :=
          mul_le_mul this h4 (abs_nonneg _) (by positivity)
      _ = _ := by field_simp
  have t3 : |f p.2 * (g p.1 - g p.2)| ≤ c / 4 * ‖p.1 - p.2‖ := by
    rw [abs_mul]
    calc _ ≤ |f p.2| * (K * ‖p.1 - p.2‖) := mul_le_mul_of_nonneg_left h2 (abs_nonneg _)
      _ = (|f p.2| * K) * ‖p.1 - p.2‖ := by ring
      _ ≤ _ := mul_le_mul_of_nonneg_right h5 (norm_nonneg _)
  have := abs_add_three ((f p.1 - f p.2 - f' (p.1 - p.2)) * g p.1) (f' (p.1 - p.2) * (g p.1 - 1))
    (f p.2 * (g p.1 - g p.2))
  linarith

end newton

/-- `arcsin r / r`, with the value 1 at 0 -/
noncomputable def arcRatio : ℝ → ℝ := dslope Real.arcsin 0

theorem arcRatio_zero : arcRatio 0 = 1 := by
  simp [arcRatio, dslope_same, Real.deriv_arcsin]

theorem arcRatio_mul (r : ℝ) : arcRatio r * r = Real.arcsin r := by
  have := sub_smul_dslope Real.arcsin 0 r
  simp only [sub_zero, smul_eq_mul, Real.arcsin_zero] at this
  rw [mul_comm]; exact this

theorem arcRatio_lipschitz {a b : ℝ} (a0 : 0 ≤ a) (a1 : a ≤ 1 / 2) (b0 : 0 ≤ b) (b1 : b ≤ 1 / 2) :
    |arcRatio a - arcRatio b| ≤ |a - b| := by
  wlog ab : b ≤ a generalizing a b
  · rw [abs_sub_comm, abs_sub_comm a b]; exact this b0 b1 a0 a1 (le_of_not_ge ab)
  rcases eq_or_lt_of_le ab with e | lt
  · rw [e]; simp
  have hd : ∀ r ∈ Set.Ioo b a, HasDerivAt arcRatio ((1 / √(1 - r ^ 2) * r - Real.arcsin r) / r ^ 2) r := by
    intro r hr
    have r0 : 0 < r := lt_of_le_of_lt b0 hr.1
    have r1 : r < 1 := by linarith [hr.2]
    have e : arcRatio =ᶠ[𝓝 r] fun x => Real.arcsin x / x := by
      filter_upwards [isOpen_Ioi.mem_nhds (show r ∈ Set.Ioi 0 from r0)] with x hx
      rw [eq_div_iff (ne_of_gt hx)]; exact arcRatio_mul x
    have := ((Real.hasDerivAt_arcsin (by linarith) (by linarith)).div (hasDerivAt_id r) r0.ne')
    simp only [id, mul_one] at this
    exact this.congr_of_eventuallyEq e
  have hc : ContinuousOn arcRatio (Set.Icc b a) := by
    intro r hr
    have r0 : 0 ≤ r := b0.trans hr.1
    have r1 : r < 1 := by linarith [hr.2]
    refine ContinuousAt.continuousWithinAt ?_
    by_cases z : r = 0
    · rw [z]
      exact continuousAt_dslope_same.2 (Real.differentiableAt_arcsin.2 ⟨by norm_num, by norm_num⟩)
    · exact (continuousAt_dslope_of_ne z).2 Real.continuous_arcsin.continuousAt
  obtain ⟨r, hr, e⟩ := exists_hasDerivAt_eq_slope arcRatio _ lt hc hd
  have r0 : 0 < r := lt_of_le_of_lt b0 hr.1
  have r1 : r ≤ 1 / 2 := by linarith [hr.2]
  have lb : |(1 / √(1 - r ^ 2) * r - Real.arcsin r) / r ^ 2| ≤ 1 := by
    have s0 : 0 < √(1 - r ^ 2) := Real.sqrt_pos.2 (by nlinarith)
    have s1 : √(1 - r ^ 2) ^ 2 = 1 - r ^ 2 := Real.sq_sqrt (by nlinarith)
    have s2 : 1 / 2 ≤ √(1 - r ^ 2) := by nlinarith
    have s3 : √(1 - r ^ 2) ≤ 1 := by nlinarith
    have low : r ≤ Real.arcsin r := by
      have := Real.sin_le (Real.arcsin_nonneg.2 r0.le)
      rwa [Real.sin_arcsin (by linarith) (by linarith)] at this
    have high : Real.arcsin r ≤ 1 / √(1 - r ^ 2) * r := by
      have lt2 : Real.arcsin r < Real.pi / 2 := Real.arcsin_lt_pi_div_two.2 (by linarith)
      have := Real.le_tan (Real.arcsin_nonneg.2 r0.le) lt2
      rw [Real.tan_arcsin] at this
      rw [one_div, inv_mul_eq_div]; exact this
    rw [abs_le]
    constructor
    · have : 0 ≤ (1 / √(1 - r ^ 2) * r - Real.arcsin r) / r ^ 2 := div_nonneg (by linarith) (by positivity)
      linarith
    · rw [div_le_one (by positivity)]
      have : 1 / √(1 - r ^ 2) * r ≤ r + r ^ 2 := by
        rw [one_div, inv_mul_eq_div, div_le_iff₀ s0]
        nlinarith
      linarith
  rw [e, abs_div, div_le_one (abs_pos.2 (by linarith))] at lb
  exact lb

end K
