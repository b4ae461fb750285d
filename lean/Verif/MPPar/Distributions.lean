import Mathlib.Probability.Distributions.Gaussian.Real
import Mathlib.Probability.Distributions.Gamma
import Mathlib.Probability.CDF
import Mathlib.MeasureTheory.Integral.IntervalIntegral.FundThmCalculus
import Mathlib.MeasureTheory.Measure.Haar.NormedSpace

/-!
# The normal and Gamma distributions themselves

Facts about the normal and Gamma distributions of Mathlib which parametric Mutual Proximity relies on. Nothing here mentions
the model of the code.
-/

set_option autoImplicit false

namespace HubToolbox.Prob

open MeasureTheory ProbabilityTheory Set

/-! ### Normal distributions -/

theorem cdf_eq (μ : Measure ℝ) [IsProbabilityMeasure μ] (x : ℝ) : cdf μ x = μ.real (Iic x) := cdf_eq_real μ x

/-- The distribution function of a normal distribution by that of the standard normal distribution. -/
theorem cdf_gaussian (m s : ℝ) (hs : 0 < s) (x : ℝ) :
    cdf (gaussianReal m (s ^ 2).toNNReal) x = cdf (gaussianReal 0 1) ((x - m) / s) := by
  have e : gaussianReal m (s ^ 2).toNNReal = (gaussianReal 0 1).map (fun t => m + s * t) := by
    have h1 := gaussianReal_map_const_mul (μ := 0) (v := 1) s
    have h2 := gaussianReal_map_const_add (μ := s * 0) (v := .mk (s ^ 2) (sq_nonneg _) * 1) m
    rw [← h1, Measure.map_map (by fun_prop) (by fun_prop)] at h2
    rw [show (fun t => m + s * t) = (fun x => m + x) ∘ (fun x => s * x) from rfl, h2]
    rw [mul_zero, zero_add, mul_one, Real.toNNReal_of_nonneg (sq_nonneg s)]
  rw [cdf_eq, cdf_eq, e, map_measureReal_apply (by fun_prop) measurableSet_Iic]
  congr 1
  ext t
  simp only [mem_preimage, mem_Iic]
  rw [le_div_iff₀ hs]
  constructor <;> intro h <;> linarith

/-- The standard normal distribution function is strictly increasing. -/
theorem phi_strict : StrictMono (cdf (gaussianReal 0 1)) := by
  intro x y h
  rw [cdf_eq, cdf_eq]
  have hne : (gaussianReal 0 1) (Ioc x y) ≠ 0 := by
    intro h0
    have := gaussianReal_absolutelyContinuous' 0 one_ne_zero h0
    rw [Real.volume_Ioc, ENNReal.ofReal_eq_zero] at this
    linarith
  have hd : (gaussianReal 0 1).real (Iic y) = (gaussianReal 0 1).real (Iic x) + (gaussianReal 0 1).real (Ioc x y) := by
    rw [← measureReal_union (by rw [disjoint_left]; intro t h1 h2; exact absurd h1 (not_le.2 h2.1)) measurableSet_Ioc,
      Iic_union_Ioc_eq_Iic h.le]
  have : 0 < (gaussianReal 0 1).real (Ioc x y) := by
    rw [measureReal_def]
    exact ENNReal.toReal_pos hne (measure_ne_top _ _)
  linarith

/-- The standard normal distribution function lies strictly between zero and one. -/
theorem phi_pos (x : ℝ) : 0 < cdf (gaussianReal 0 1) x :=
  lt_of_le_of_lt (cdf_nonneg _ (x - 1)) (phi_strict (by linarith))

theorem phi_lt_one (x : ℝ) : cdf (gaussianReal 0 1) x < 1 :=
  lt_of_lt_of_le (phi_strict (by linarith : x < x + 1)) (cdf_le_one _ _)

/-- The standard normal distribution is symmetric. -/
theorem phi_neg (x : ℝ) : cdf (gaussianReal 0 1) (-x) = 1 - cdf (gaussianReal 0 1) x := by
  haveI := nullSingletonClass_gaussianReal (μ := 0) (v := 1) one_ne_zero
  have e : (gaussianReal 0 1).map (fun t => -t) = gaussianReal 0 1 := by
    rw [gaussianReal_map_neg, neg_zero]
  rw [cdf_eq, cdf_eq]
  conv_lhs => rw [← e]
  rw [map_measureReal_apply (by fun_prop) measurableSet_Iic]
  have h1 : (fun t : ℝ => -t) ⁻¹' Iic (-x) = Ici x := by
    ext t
    simp
  rw [h1, ← probReal_compl_eq_one_sub measurableSet_Iic, compl_Iic]
  exact measureReal_congr Ioi_ae_eq_Ici.symm

/-! ### Gamma distributions -/

theorem gammaPDF_scale {a r : ℝ} (hr : 0 < r) (t : ℝ) : gammaPDFReal a r t = r * gammaPDFReal a 1 (r * t) := by
  unfold gammaPDFReal
  by_cases h : 0 ≤ t
  · rw [if_pos h, if_pos (mul_nonneg hr.le h), Real.mul_rpow hr.le h, Real.one_rpow, one_mul]
    rw [show r ^ a = r * r ^ (a - 1) by rw [Real.rpow_sub_one hr.ne']; field_simp]
    ring
  · rw [if_neg h, if_neg, mul_zero]
    intro h'
    exact h ((mul_nonneg_iff_of_pos_left hr).1 h')

/-- The distribution function of the Gamma distribution with rate `r` by that with rate one. -/
theorem cdf_gamma {a r : ℝ} (ha : 0 < a) (hr : 0 < r) (x : ℝ) :
    cdf (gammaMeasure a r) x = cdf (gammaMeasure a 1) (r * x) := by
  rw [cdf_gammaMeasure_eq_integral ha hr, cdf_gammaMeasure_eq_integral ha one_pos, ← integral_indicator measurableSet_Iic,
    ← integral_indicator measurableSet_Iic]
  have h := Measure.integral_comp_mul_left (fun t => (Iic (r * x)).indicator (gammaPDFReal a 1) t) r
  rw [abs_of_pos (inv_pos.2 hr), smul_eq_mul] at h
  have e : (Iic x).indicator (fun t => gammaPDFReal a r t) = fun t => r * (Iic (r * x)).indicator (gammaPDFReal a 1) (r * t) := by
    funext t
    by_cases ht : t ≤ x
    · rw [indicator_of_mem (show t ∈ Iic x from ht), indicator_of_mem (show r * t ∈ Iic (r * x) from mul_le_mul_of_nonneg_left ht hr.le),
        gammaPDF_scale hr]
    · rw [indicator_of_notMem (show t ∉ Iic x from ht), indicator_of_notMem, mul_zero]
      intro h'
      exact ht (le_of_mul_le_mul_left h' hr)
  rw [e, integral_const_mul, h, ← mul_assoc, mul_inv_cancel₀ hr.ne', one_mul]

theorem cdf_gamma_zero {a : ℝ} (ha : 0 < a) : cdf (gammaMeasure a 1) 0 = 0 := by
  rw [cdf_gammaMeasure_eq_lintegral ha one_pos]
  rw [lintegral_Iic_eq_lintegral_Iio_add_Icc _ le_rfl, Icc_self, lintegral_gammaPDF_of_nonpos le_rfl]
  simp

theorem cdf_gamma_nonpos {a : ℝ} (ha : 0 < a) {x : ℝ} (hx : x ≤ 0) : cdf (gammaMeasure a 1) x = 0 :=
  le_antisymm ((monotone_cdf _ hx).trans (cdf_gamma_zero ha).le) (cdf_nonneg _ _)

/-- The distribution function of a Gamma distribution is strictly increasing for nonnegative arguments. -/
theorem cdf_gamma_strict {a : ℝ} (ha : 0 < a) {x y : ℝ} (hx : 0 ≤ x) (h : x < y) :
    cdf (gammaMeasure a 1) x < cdf (gammaMeasure a 1) y := by
  haveI := isProbabilityMeasure_gammaMeasure ha one_pos
  rw [cdf_eq, cdf_eq]
  have hne : (gammaMeasure a 1) (Ioc x y) ≠ 0 := by
    intro h0
    rw [gammaMeasure, withDensity_apply_eq_zero' (by
      unfold gammaPDF
      exact (measurable_gammaPDFReal a 1).ennreal_ofReal.aemeasurable)] at h0
    have e : {t | gammaPDF a 1 t ≠ 0} ∩ Ioc x y = Ioc x y := by
      ext t
      simp only [mem_inter_iff, mem_setOf_eq, and_iff_right_iff_imp]
      intro ht
      unfold gammaPDF
      exact (ENNReal.ofReal_pos.2 (gammaPDFReal_pos ha one_pos (lt_of_le_of_lt hx ht.1))).ne'
    rw [e, Real.volume_Ioc, ENNReal.ofReal_eq_zero] at h0
    linarith
  have hd : (gammaMeasure a 1).real (Iic y) = (gammaMeasure a 1).real (Iic x) + (gammaMeasure a 1).real (Ioc x y) := by
    rw [← measureReal_union (by rw [disjoint_left]; intro t h1 h2; exact absurd h1 (not_le.2 h2.1)) measurableSet_Ioc,
      Iic_union_Ioc_eq_Iic h.le]
  have : 0 < (gammaMeasure a 1).real (Ioc x y) := by
    rw [measureReal_def]
    exact ENNReal.toReal_pos hne (measure_ne_top _ _)
  linarith

theorem hasDerivAt_erlang (k : ℕ) (x : ℝ) :
    HasDerivAt (fun x : ℝ => -(Real.exp (-x) * ∑ j ∈ Finset.range (k + 1), x ^ j / (Nat.factorial j : ℝ)))
      (x ^ k / (Nat.factorial k : ℝ) * Real.exp (-x)) x := by
  have hexp : HasDerivAt (fun x : ℝ => Real.exp (-x)) (-Real.exp (-x)) x := by
    have := (hasDerivAt_neg x).exp
    convert! this using 1
    ring
  induction k with
  | zero =>
    simp only [zero_add, Finset.range_one, Finset.sum_singleton, pow_zero, Nat.factorial_zero, Nat.cast_one, div_one, mul_one, one_mul]
    convert! hexp.neg using 1
    ring
  | succ k ih =>
    have hp : HasDerivAt (fun x : ℝ => x ^ (k + 1) / (Nat.factorial (k + 1) : ℝ)) (x ^ k / (Nat.factorial k : ℝ)) x := by
      have := (hasDerivAt_pow (k + 1) x).div_const (Nat.factorial (k + 1) : ℝ)
      convert! this using 1
      rw [Nat.factorial_succ]
      have : (Nat.factorial k : ℝ) ≠ 0 := by exact_mod_cast Nat.factorial_ne_zero k
      push_cast
      field_simp
    have h := ih.add (hexp.mul hp).neg
    convert! h using 1
    · funext y
      rw [Finset.sum_range_succ _ (k + 1)]
      simp only [Pi.add_apply, Pi.mul_apply, Pi.neg_apply]
      ring
    · ring

/-- The Gamma distribution function for whole numbers as shape (Erlang distribution). -/
theorem cdf_erlang (k : ℕ) {x : ℝ} (hx : 0 ≤ x) :
    cdf (gammaMeasure (k + 1) 1) x = 1 - Real.exp (-x) * ∑ j ∈ Finset.range (k + 1), x ^ j / (Nat.factorial j : ℝ) := by
  have ha : (0 : ℝ) < k + 1 := by positivity
  haveI := isProbabilityMeasure_gammaMeasure ha one_pos
  have hpdf : ∀ t, 0 ≤ t → gammaPDFReal (k + 1) 1 t = t ^ k / (Nat.factorial k : ℝ) * Real.exp (-t) := by
    intro t ht
    unfold gammaPDFReal
    rw [if_pos ht, Real.one_rpow, Real.Gamma_nat_eq_factorial, one_mul, add_sub_cancel_right, Real.rpow_natCast]
    ring
  have hcont : Continuous fun t : ℝ => t ^ k / (Nat.factorial k : ℝ) * Real.exp (-t) := by fun_prop
  have h0 := cdf_gamma_zero ha
  have hdiff : cdf (gammaMeasure (k + 1) 1) x = (gammaMeasure (k + 1) 1).real (Ioc 0 x) := by
    have hd : (gammaMeasure (k + 1) 1).real (Iic x) = (gammaMeasure (k + 1) 1).real (Iic 0) + (gammaMeasure (k + 1) 1).real (Ioc 0 x) := by
      rw [← measureReal_union (by rw [disjoint_left]; intro t h1 h2; exact absurd h1 (not_le.2 h2.1)) measurableSet_Ioc,
        Iic_union_Ioc_eq_Iic hx]
    rw [cdf_eq] at h0 ⊢
    rw [hd, h0, zero_add]
  have hint : (gammaMeasure (k + 1) 1).real (Ioc 0 x) = ∫ t in Ioc 0 x, gammaPDFReal (k + 1) 1 t := by
    rw [gammaMeasure, measureReal_def, withDensity_apply _ measurableSet_Ioc]
    refine (integral_eq_lintegral_of_nonneg_ae ?_ ?_).symm
    · exact ae_of_all _ fun b => by simp [gammaPDFReal_nonneg ha one_pos]
    · fun_prop
  rw [hdiff, hint, setIntegral_congr_fun measurableSet_Ioc (fun t ht => hpdf t ht.1.le), ← intervalIntegral.integral_of_le hx,
    intervalIntegral.integral_eq_sub_of_hasDerivAt (fun t _ => hasDerivAt_erlang k t) (hcont.intervalIntegrable _ _)]
  have hz : ∑ j ∈ Finset.range (k + 1), (0 : ℝ) ^ j / (Nat.factorial j : ℝ) = 1 := by
    rw [Finset.sum_range_succ']
    simp
  rw [hz]
  simp
  ring

/-! ### Mean and variance of Gamma distributions -/

theorem integral_gamma {a r : ℝ} (ha : 0 < a) (hr : 0 < r) (f : ℝ → ℝ) :
    ∫ x, f x ∂gammaMeasure a r = ∫ x in Ioi 0, r ^ a / Real.Gamma a * (x ^ (a - 1) * Real.exp (-(r * x)) * f x) := by
  rw [gammaMeasure, integral_withDensity_eq_integral_toReal_smul₀]
  · rw [← integral_indicator measurableSet_Ioi]
    refine integral_congr_ae ?_
    have h0 : ∀ᵐ x : ℝ, x ≠ 0 := by
      rw [ae_iff]
      simp
    filter_upwards [h0] with x hx
    unfold gammaPDF
    rw [ENNReal.toReal_ofReal (gammaPDFReal_nonneg ha hr x), smul_eq_mul]
    unfold gammaPDFReal
    by_cases h : 0 ≤ x
    · have h' : 0 < x := lt_of_le_of_ne h (Ne.symm hx)
      rw [if_pos h, indicator_of_mem (show x ∈ Ioi 0 from h')]
      ring
    · rw [if_neg h, indicator_of_notMem (fun h' : x ∈ Ioi 0 => h (le_of_lt h')), zero_mul]
  · exact ((measurable_gammaPDFReal a r).ennreal_ofReal).aemeasurable
  · exact ae_of_all _ fun x => ENNReal.ofReal_lt_top

/-- The moments of a Gamma distribution. -/
theorem gamma_moment {a r : ℝ} (ha : 0 < a) (hr : 0 < r) (k : ℕ) :
    ∫ x, x ^ k ∂gammaMeasure a r = Real.Gamma (a + k) / Real.Gamma a / r ^ k := by
  rw [integral_gamma ha hr, integral_const_mul]
  have e : ∫ x in Ioi (0 : ℝ), x ^ (a - 1) * Real.exp (-(r * x)) * x ^ k = ∫ x in Ioi (0 : ℝ), x ^ ((a + k) - 1) * Real.exp (-(r * x)) := by
    refine setIntegral_congr_fun measurableSet_Ioi fun x hx => ?_
    have hx : (0 : ℝ) < x := hx
    beta_reduce
    rw [show a + k - 1 = (a - 1) + (k : ℝ) by ring, Real.rpow_add hx, Real.rpow_natCast]
    ring
  rw [e, Real.integral_rpow_mul_exp_neg_mul_Ioi (by positivity) hr, one_div, Real.inv_rpow hr.le, Real.rpow_add hr, Real.rpow_natCast]
  have h1 : r ^ a ≠ 0 := (Real.rpow_pos_of_pos hr a).ne'
  have h2 : Real.Gamma a ≠ 0 := (Real.Gamma_pos_of_pos ha).ne'
  field_simp

theorem gamma_mean {a r : ℝ} (ha : 0 < a) (hr : 0 < r) : ∫ x, x ∂gammaMeasure a r = a / r := by
  have h := gamma_moment ha hr 1
  simp only [pow_one, Nat.cast_one] at h
  rw [h, Real.Gamma_add_one ha.ne', mul_div_assoc, div_self (Real.Gamma_pos_of_pos ha).ne', mul_one]

theorem gamma_square {a r : ℝ} (ha : 0 < a) (hr : 0 < r) : ∫ x, x ^ 2 ∂gammaMeasure a r = (a + 1) * a / r ^ 2 := by
  have h := gamma_moment ha hr 2
  rw [h, show a + ((2 : ℕ) : ℝ) = (a + 1) + 1 by push_cast; ring, Real.Gamma_add_one (by positivity), Real.Gamma_add_one ha.ne']
  have h2 : Real.Gamma a ≠ 0 := (Real.Gamma_pos_of_pos ha).ne'
  field_simp

theorem gamma_variance {a r : ℝ} (ha : 0 < a) (hr : 0 < r) :
    ∫ x, (x - a / r) ^ 2 ∂gammaMeasure a r = a / r ^ 2 := by
  haveI := isProbabilityMeasure_gammaMeasure ha hr
  have i1 : Integrable (fun x : ℝ => x) (gammaMeasure a r) := by
    by_contra h
    have := gamma_mean ha hr
    rw [integral_undef h] at this
    exact (div_pos ha hr).ne this
  have i2 : Integrable (fun x : ℝ => x ^ 2) (gammaMeasure a r) := by
    by_contra h
    have := gamma_square ha hr
    rw [integral_undef h] at this
    exact (by positivity : 0 < (a + 1) * a / r ^ 2).ne this
  have e : (fun x : ℝ => (x - a / r) ^ 2) = fun x => (x ^ 2 - 2 * (a / r) * x) + (a / r) ^ 2 := by
    funext x
    ring
  have i3 : Integrable (fun x : ℝ => x ^ 2 - 2 * (a / r) * x) (gammaMeasure a r) := i2.sub (i1.const_mul _)
  rw [e, integral_add i3 (integrable_const _), integral_sub i2 (i1.const_mul _), integral_const_mul,
    gamma_mean ha hr, gamma_square ha hr, integral_const]
  simp
  field_simp
  ring

/-! ### Two independent variables -/

/-- The probability that two independent variables both exceed `d`. -/
theorem both_above (μ ν : Measure ℝ) [IsProbabilityMeasure μ] [IsProbabilityMeasure ν] (d : ℝ) :
    (μ.prod ν).real {p | d < p.1 ∧ d < p.2} = (1 - cdf μ d) * (1 - cdf ν d) := by
  have e : {p : ℝ × ℝ | d < p.1 ∧ d < p.2} = Ioi d ×ˢ Ioi d := by
    ext p
    simp
  rw [e, measureReal_prod_prod, cdf_eq, cdf_eq, ← probReal_compl_eq_one_sub measurableSet_Iic,
    ← probReal_compl_eq_one_sub measurableSet_Iic, compl_Iic]

/-- The probability that two independent variables are both at most `d`. -/
theorem both_below (μ ν : Measure ℝ) [IsProbabilityMeasure μ] [IsProbabilityMeasure ν] (d : ℝ) :
    (μ.prod ν).real {p | p.1 ≤ d ∧ p.2 ≤ d} = cdf μ d * cdf ν d := by
  have e : {p : ℝ × ℝ | p.1 ≤ d ∧ p.2 ≤ d} = Iic d ×ˢ Iic d := by
    ext p
    simp only [mem_setOf_eq, mem_prod, mem_Iic]
  rw [e, measureReal_prod_prod, cdf_eq, cdf_eq]

end HubToolbox.Prob
