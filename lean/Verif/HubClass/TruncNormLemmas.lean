import Verif.HubClass.TruncNormModel
import Mathlib.MeasureTheory.Integral.IntervalIntegral.FundThmCalculus
import Mathlib.Analysis.Real.Pi.Bounds

set_option autoImplicit false

namespace HubToolbox.HubClass

open MeasureTheory ProbabilityTheory Set

/-- Density of the standard normal distribution. -/
noncomputable def phi (x : ℝ) : ℝ := gaussianPDFReal 0 1 x

theorem phi_eq (x : ℝ) : phi x = (√(2 * Real.pi))⁻¹ * Real.exp (-x ^ 2 / 2) := by
  simp [phi, gaussianPDFReal]

theorem phi_pos (x : ℝ) : 0 < phi x := gaussianPDFReal_pos _ _ _ one_ne_zero

theorem phi_deriv (x : ℝ) : HasDerivAt phi (-x * phi x) x := by
  have h : HasDerivAt (fun y : ℝ => (√(2 * Real.pi))⁻¹ * Real.exp (-y ^ 2 / 2))
      ((√(2 * Real.pi))⁻¹ * (Real.exp (-x ^ 2 / 2) * (-(2 * x) / 2))) x := by
    have h1 : HasDerivAt (fun y : ℝ => -y ^ 2 / 2) (-(2 * x) / 2) x := by
      have := ((hasDerivAt_pow 2 x).neg).div_const 2
      simpa using this
    exact (h1.exp).const_mul _
  have e : phi = fun y : ℝ => (√(2 * Real.pi))⁻¹ * Real.exp (-y ^ 2 / 2) := funext phi_eq
  rw [phi_eq, e]
  convert h using 1
  ring

theorem phi_continuous : Continuous phi :=
  continuous_iff_continuousAt.2 fun x => (phi_deriv x).continuousAt

/-- Probability of the interval. -/
noncomputable def mass (a b : ℝ) : ℝ := ∫ x in a..b, phi x

theorem mass_pos {a b : ℝ} (h : a < b) : 0 < mass a b :=
  intervalIntegral.intervalIntegral_pos_of_pos (phi_continuous.intervalIntegrable _ _) phi_pos h

theorem measure_Icc {a b : ℝ} (h : a ≤ b) : gaussianReal 0 1 (Icc a b) = ENNReal.ofReal (mass a b) := by
  rw [gaussianReal_apply_eq_integral _ one_ne_zero, mass, intervalIntegral.integral_of_le h, integral_Icc_eq_integral_Ioc]
  rfl

theorem setIntegral_Icc {a b : ℝ} (h : a ≤ b) (f : ℝ → ℝ) :
    ∫ x in Icc a b, f x ∂(gaussianReal 0 1) = ∫ x in a..b, phi x * f x := by
  rw [← integral_indicator measurableSet_Icc, integral_gaussianReal_eq_integral_smul one_ne_zero,
    intervalIntegral.integral_of_le h, ← integral_Icc_eq_integral_Ioc, ← integral_indicator measurableSet_Icc]
  congr 1
  funext x
  by_cases hx : x ∈ Icc a b <;> simp [hx, phi]

theorem integral_cond {a b : ℝ} (h : a < b) (f : ℝ → ℝ) :
    ∫ x, f x ∂((gaussianReal 0 1)[|Icc a b]) = (∫ x in a..b, phi x * f x) / mass a b := by
  rw [ProbabilityTheory.cond, integral_smul_measure, setIntegral_Icc h.le, measure_Icc h.le,
    ENNReal.toReal_inv, ENNReal.toReal_ofReal (mass_pos h).le, smul_eq_mul]
  field_simp

theorem int1 (a b : ℝ) : ∫ x in a..b, phi x * x = phi a - phi b := by
  rw [intervalIntegral.integral_eq_sub_of_hasDerivAt (f := fun x => - phi x)]
  · ring
  · intro x _
    have h := (phi_deriv x).neg
    rw [show -(-x * phi x) = phi x * x by ring] at h
    exact h
  · exact (phi_continuous.mul continuous_id).intervalIntegrable _ _

theorem int2 (a b : ℝ) : ∫ x in a..b, phi x * x ^ 2 = mass a b + a * phi a - b * phi b := by
  have h : ∫ x in a..b, (phi x - phi x * x ^ 2) = b * phi b - a * phi a := by
    rw [intervalIntegral.integral_eq_sub_of_hasDerivAt (f := fun x => x * phi x)]
    · intro x _
      have h := (hasDerivAt_id x).mul (phi_deriv x)
      rw [show 1 * phi x + id x * (-x * phi x) = phi x - phi x * x ^ 2 by simp only [id]; ring] at h
      exact h
    · exact (phi_continuous.sub (phi_continuous.mul (continuous_pow 2))).intervalIntegrable _ _
  have hi : IntervalIntegrable (fun x => phi x * x ^ 2) volume a b :=
    (phi_continuous.mul (continuous_pow 2)).intervalIntegrable _ _
  rw [intervalIntegral.integral_sub (phi_continuous.intervalIntegrable _ _) hi] at h
  rw [mass]
  linarith

theorem int3 (a b : ℝ) : ∫ x in a..b, phi x * x ^ 3 = (a ^ 2 + 2) * phi a - (b ^ 2 + 2) * phi b := by
  rw [intervalIntegral.integral_eq_sub_of_hasDerivAt (f := fun x => - ((x ^ 2 + 2) * phi x))]
  · ring
  · intro x _
    have h := (((hasDerivAt_pow 2 x).add_const 2).mul (phi_deriv x)).neg
    rw [show -(((2 : ℕ) : ℝ) * x ^ (2 - 1) * phi x + (x ^ 2 + 2) * (-x * phi x)) = phi x * x ^ 3 by
      norm_num; ring] at h
    exact h
  · exact (phi_continuous.mul (continuous_pow 3)).intervalIntegrable _ _

/-- The antiderivative of `-x³ φ(x)`. -/
noncomputable def g (x : ℝ) : ℝ := (x ^ 2 + 2) * phi x

theorem g_zero : g 0 = 2 * phi 0 := by simp [g]

theorem g_pos (x : ℝ) : 0 < g x := mul_pos (by positivity) (phi_pos x)

theorem g_lt {x y : ℝ} (h : |x| < |y|) : g y < g x := by
  have hxy : x ^ 2 < y ^ 2 := sq_lt_sq.2 h
  have h1 : (y ^ 2 - x ^ 2) / 2 + 1 < Real.exp ((y ^ 2 - x ^ 2) / 2) := Real.add_one_lt_exp (by linarith)
  have h2 : phi x = phi y * Real.exp ((y ^ 2 - x ^ 2) / 2) := by
    rw [phi_eq, phi_eq, mul_assoc, ← Real.exp_add]
    ring_nf
  rw [g, g, h2]
  have h3 : (y ^ 2 + 2) < (x ^ 2 + 2) * Real.exp ((y ^ 2 - x ^ 2) / 2) := by
    nlinarith [sq_nonneg x]
  nlinarith [phi_pos y]

theorem g_le {x y : ℝ} (h : |x| ≤ |y|) : g y ≤ g x := by
  rcases h.lt_or_eq with h | h
  · exact (g_lt h).le
  · have : x ^ 2 = y ^ 2 := sq_eq_sq_iff_abs_eq_abs _ _ |>.2 h
    rw [g, g, phi_eq, phi_eq, this]

theorem phi_neg (x : ℝ) : phi (-x) = phi x := by rw [phi_eq, phi_eq]; simp

theorem mass_add (a b c : ℝ) : mass a b + mass b c = mass a c :=
  intervalIntegral.integral_add_adjacent_intervals (phi_continuous.intervalIntegrable _ _)
    (phi_continuous.intervalIntegrable _ _)

theorem mass_neg (x : ℝ) : mass (-x) 0 = mass 0 x := by
  have h := intervalIntegral.integral_comp_neg (a := 0) (b := x) phi
  rw [neg_zero] at h
  rw [mass, ← h, mass]
  simp only [phi_neg]

theorem mass_tendsto : Filter.Tendsto (fun B : ℝ => mass 0 B) Filter.atTop (nhds (1 / 2)) := by
  have h := intervalIntegral_tendsto_integral (μ := volume) (integrable_gaussianPDFReal 0 1)
    Filter.tendsto_neg_atTop_atBot Filter.tendsto_id
  rw [integral_gaussianPDFReal_eq_one 0 one_ne_zero] at h
  have e : (fun B : ℝ => mass 0 B) = fun B => (∫ x in (-B)..(id B), gaussianPDFReal 0 1 x) / 2 := by
    funext B
    have : mass (-B) B = ∫ x in (-B)..(id B), gaussianPDFReal 0 1 x := rfl
    rw [← this, ← mass_add (-B) 0 B, mass_neg]
    ring
  rw [e]
  exact h.div_const 2

/-- The third moment between 0 and `b` does not exceed `4 φ(0)` times the mass. -/
theorem half_bound {b : ℝ} (hb : 0 ≤ b) : 2 * phi 0 - g b ≤ 4 * phi 0 * mass 0 b := by
  have key : ∫ x in (0 : ℝ)..b, phi x * x ^ 3 = 2 * phi 0 - g b := by rw [int3, g]; ring
  rcases le_total (b ^ 3) (4 * phi 0) with h | h
  · rw [← key, mass, ← intervalIntegral.integral_const_mul]
    refine intervalIntegral.integral_mono_on hb ((phi_continuous.mul (continuous_pow 3)).intervalIntegrable _ _)
      ((phi_continuous.const_mul _).intervalIntegrable _ _) fun x hx => ?_
    have : x ^ 3 ≤ 4 * phi 0 := (pow_le_pow_left₀ hx.1 hx.2 3).trans h
    nlinarith [phi_pos x]
  · have hB : ∀ B, b ≤ B → 4 * phi 0 * mass 0 B ≤ 4 * phi 0 * mass 0 b + g b := by
      intro B hB
      have h1 : 4 * phi 0 * mass b B ≤ g b - g B := by
        have e : ∫ x in b..B, phi x * x ^ 3 = g b - g B := by rw [int3, g, g]
        rw [← e, mass, ← intervalIntegral.integral_const_mul]
        refine intervalIntegral.integral_mono_on hB ((phi_continuous.const_mul _).intervalIntegrable _ _)
          ((phi_continuous.mul (continuous_pow 3)).intervalIntegrable _ _) fun x hx => ?_
        have : 4 * phi 0 ≤ x ^ 3 := h.trans (pow_le_pow_left₀ hb hx.1 3)
        nlinarith [phi_pos x]
      have h2 := mass_add 0 b B
      have h3 := g_pos B
      rw [← h2, mul_add]
      linarith
    have hl := le_of_tendsto (mass_tendsto.const_mul (4 * phi 0))
      (Filter.eventually_atTop.2 ⟨b, fun B h => hB B h⟩)
    linarith

theorem truncnormMoment_three {a b : ℝ} (h : a < b) : truncnormMoment a b 3 = (g a - g b) / mass a b := by
  rw [truncnormMoment, integral_cond h, int3, g, g]

theorem moment_pos {a b : ℝ} (h : a < b) (hab : |a| < |b|) : 0 < truncnormMoment a b 3 := by
  rw [truncnormMoment_three h]
  exact div_pos (sub_pos.2 (g_lt hab)) (mass_pos h)

theorem moment_lt {a b : ℝ} (ha : a < 0) (hb : 0 < b) : truncnormMoment a b 3 < 4 * phi 0 := by
  rw [truncnormMoment_three (ha.trans hb), div_lt_iff₀ (mass_pos (ha.trans hb)), ← mass_add a 0 b]
  have h1 := half_bound hb.le
  have h2 := mass_pos ha
  have h3 : g a ≤ 2 * phi 0 := by rw [← g_zero]; exact g_le (by simp)
  have h4 := phi_pos 0
  nlinarith [mul_pos h4 h2]

theorem phi_zero_lt : phi 0 < 0.399 := by
  rw [phi_eq]
  have h : (2.5065 : ℝ) < √(2 * Real.pi) := by
    rw [Real.lt_sqrt (by norm_num)]
    have := Real.pi_gt_d6
    norm_num
    linarith
  norm_num
  rw [show (√Real.pi)⁻¹ * (√2)⁻¹ = (√(2 * Real.pi))⁻¹ by rw [Real.sqrt_mul (by norm_num)]; rw [mul_inv]; ring]
  rw [inv_lt_comm₀ (by linarith) (by norm_num)]
  refine lt_trans ?_ h
  norm_num

theorem phi_zero_gt : 0.3989 < phi 0 := by
  rw [phi_eq]
  have h : √(2 * Real.pi) < (2.50664 : ℝ) := by
    rw [Real.sqrt_lt' (by norm_num)]
    have := Real.pi_lt_d6
    norm_num
    linarith
  have hp : (0 : ℝ) < √(2 * Real.pi) := Real.sqrt_pos.2 (by positivity)
  norm_num
  rw [show (√Real.pi)⁻¹ * (√2)⁻¹ = (√(2 * Real.pi))⁻¹ by rw [Real.sqrt_mul (by norm_num)]; rw [mul_inv]; ring]
  rw [lt_inv_comm₀ (by norm_num) hp]
  refine lt_trans h ?_
  norm_num

/-- A truncated normal distribution is the image of the truncated standard normal distribution. -/
theorem cond_map (m : ℝ) {s : ℝ} (hs : 0 < s) (lo hi : ℝ) :
    (gaussianReal m (s ^ 2).toNNReal)[|Icc lo hi]
      = ((gaussianReal 0 1)[|Icc ((lo - m) / s) ((hi - m) / s)]).map (fun x => m + s * x) := by
  have hf : Measurable (fun x : ℝ => m + s * x) := by fun_prop
  have hg : gaussianReal m (s ^ 2).toNNReal = (gaussianReal 0 1).map (fun x => m + s * x) := by
    have h1 := gaussianReal_map_const_mul (μ := 0) (v := 1) s
    have h2 := gaussianReal_map_const_add (μ := s * 0) (v := NNReal.mk (s ^ 2) (sq_nonneg _) * 1) m
    rw [← h1, Measure.map_map (by fun_prop) (by fun_prop)] at h2
    rw [show (fun x : ℝ => m + s * x) = (fun x => m + x) ∘ (fun x => s * x) from rfl, h2]
    congr 1
    · simp
    · ext
      simp [Real.coe_toNNReal _ (sq_nonneg s)]
  have hp : (fun x : ℝ => m + s * x) ⁻¹' Icc lo hi = Icc ((lo - m) / s) ((hi - m) / s) := by
    ext x
    simp only [mem_preimage, mem_Icc, div_le_iff₀ hs, le_div_iff₀ hs]
    constructor <;> rintro ⟨h1, h2⟩ <;> constructor <;> nlinarith
  ext t ht
  rw [cond_apply measurableSet_Icc, hg, Measure.map_apply hf measurableSet_Icc, Measure.map_apply hf (measurableSet_Icc.inter ht),
    Measure.map_apply hf ht, cond_apply measurableSet_Icc, ← hp, preimage_inter]

theorem integral_cond_map (m : ℝ) {s : ℝ} (hs : 0 < s) (lo hi : ℝ) (f : ℝ → ℝ) (hf : Continuous f) :
    ∫ x, f x ∂((gaussianReal m (s ^ 2).toNNReal)[|Icc lo hi])
      = ∫ x, f (m + s * x) ∂((gaussianReal 0 1)[|Icc ((lo - m) / s) ((hi - m) / s)]) := by
  rw [cond_map m hs, integral_map (by fun_prop) hf.aestronglyMeasurable]

end HubToolbox.HubClass
