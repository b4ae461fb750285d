import Verif.MPPar.Distributions
import Mathlib.Analysis.Real.Pi.Bounds

/-!
# How fast the normal distribution function changes
-/

set_option autoImplicit false

namespace HubToolbox.Prob

open MeasureTheory ProbabilityTheory Set

/-- Where the density is at most `c`, the distribution function grows at most at rate `c`. -/
theorem phi_sub_le {a b c : ℝ} (h : a ≤ b) (hc : ∀ t ∈ Ioc a b, gaussianPDFReal 0 1 t ≤ c) (hc0 : 0 ≤ c) :
    cdf (gaussianReal 0 1) b - cdf (gaussianReal 0 1) a ≤ (b - a) * c := by
  have hd : (gaussianReal 0 1).real (Iic b) = (gaussianReal 0 1).real (Iic a) + (gaussianReal 0 1).real (Ioc a b) := by
    rw [← measureReal_union (by rw [disjoint_left]; intro t h1 h2; exact absurd h1 (not_le.2 h2.1)) measurableSet_Ioc,
      Iic_union_Ioc_eq_Iic h]
  rw [cdf_eq, cdf_eq, hd, add_sub_cancel_left, measureReal_def]
  apply ENNReal.toReal_le_of_le_ofReal (mul_nonneg (by linarith) hc0)
  rw [gaussianReal_apply 0 one_ne_zero]
  calc ∫⁻ x in Ioc a b, gaussianPDF 0 1 x ≤ ∫⁻ x in Ioc a b, ENNReal.ofReal c := by
        apply setLIntegral_mono measurable_const
        intro x hx
        exact ENNReal.ofReal_le_ofReal (hc x hx)
    _ = ENNReal.ofReal ((b - a) * c) := by
        rw [setLIntegral_const, Real.volume_Ioc, mul_comm, ENNReal.ofReal_mul (by linarith)]

theorem pdf_eq (t : ℝ) : gaussianPDFReal 0 1 t = (√(2 * Real.pi))⁻¹ * Real.exp (-(t ^ 2 / 2)) := by
  unfold gaussianPDFReal
  norm_num
  left
  congr 1
  ring

theorem root_le : (√(2 * Real.pi))⁻¹ ≤ 2 / 5 := by
  have h : 5 / 2 ≤ √(2 * Real.pi) := by
    apply Real.le_sqrt_of_sq_le
    have := Real.pi_gt_d2
    norm_num
    linarith
  calc (√(2 * Real.pi))⁻¹ ≤ (5 / 2 : ℝ)⁻¹ := inv_anti₀ (by norm_num) h
    _ = 2 / 5 := by norm_num

theorem pdf_le (t : ℝ) : gaussianPDFReal 0 1 t ≤ 2 / 5 := by
  rw [pdf_eq]
  have h1 : Real.exp (-(t ^ 2 / 2)) ≤ 1 := Real.exp_le_one_iff.2 (by have := sq_nonneg t; linarith)
  have h0 : 0 ≤ (√(2 * Real.pi))⁻¹ := by positivity
  calc _ ≤ (√(2 * Real.pi))⁻¹ * 1 := mul_le_mul_of_nonneg_left h1 h0
    _ ≤ 2 / 5 := by rw [mul_one]; exact root_le

/-- The density times the argument is bounded. -/
theorem abs_mul_pdf_le (t : ℝ) : |t| * gaussianPDFReal 0 1 t ≤ 3 / 10 := by
  rw [pdf_eq]
  have h1 : |t| * Real.exp (-(t ^ 2 / 2)) ≤ 5 / 7 := by
    rw [Real.exp_neg, ← div_eq_mul_inv, div_le_iff₀ (Real.exp_pos _)]
    have h2 := Real.add_one_le_exp (t ^ 2 / 2)
    have h3 : t ^ 2 = |t| ^ 2 := (sq_abs t).symm
    nlinarith [sq_nonneg (|t| - 7 / 5)]
  have h0 : 0 ≤ (√(2 * Real.pi))⁻¹ := by positivity
  have h4 : 0 ≤ |t| * Real.exp (-(t ^ 2 / 2)) := by positivity
  calc |t| * ((√(2 * Real.pi))⁻¹ * Real.exp (-(t ^ 2 / 2))) = (√(2 * Real.pi))⁻¹ * (|t| * Real.exp (-(t ^ 2 / 2))) := by ring
    _ ≤ 2 / 5 * (5 / 7) := mul_le_mul root_le h1 h4 (by norm_num)
    _ ≤ 3 / 10 := by norm_num

/-- The distribution function changes at most at rate `2/5`. -/
theorem phi_lipschitz (x y : ℝ) : |cdf (gaussianReal 0 1) x - cdf (gaussianReal 0 1) y| ≤ 2 / 5 * |x - y| := by
  have key : ∀ a b : ℝ, a ≤ b → |cdf (gaussianReal 0 1) b - cdf (gaussianReal 0 1) a| ≤ 2 / 5 * |b - a| := by
    intro a b h
    rw [abs_of_nonneg (sub_nonneg.2 (monotone_cdf _ h)), abs_of_nonneg (sub_nonneg.2 h), mul_comm]
    exact phi_sub_le h (fun t _ => pdf_le t) (by norm_num)
  rcases le_total y x with h | h
  · exact key y x h
  · rw [abs_sub_comm, abs_sub_comm x]
    exact key x y h

theorem pdf_anti {s t : ℝ} (h : |s| ≤ |t|) : gaussianPDFReal 0 1 t ≤ gaussianPDFReal 0 1 s := by
  rw [pdf_eq, pdf_eq]
  refine mul_le_mul_of_nonneg_left (Real.exp_le_exp.2 ?_) (by positivity)
  have := sq_le_sq.2 h
  linarith

/-- The distribution function at `a * z` and at `z` differ at most by a multiple of `|a - 1|`, whatever `z`. -/
theorem phi_scale {a : ℝ} (ha : 1 / 2 ≤ a) (z : ℝ) :
    |cdf (gaussianReal 0 1) (a * z) - cdf (gaussianReal 0 1) z| ≤ 3 / 5 * |a - 1| := by
  have hb : ∀ t, (min (a * z) z) ≤ t → t ≤ max (a * z) z → gaussianPDFReal 0 1 t ≤ gaussianPDFReal 0 1 (z / 2) := by
    intro t h1 h2
    apply pdf_anti
    rcases le_total 0 z with h | h
    · have : z / 2 ≤ min (a * z) z := le_min (by nlinarith) (by linarith)
      rw [abs_of_nonneg (by linarith), abs_of_nonneg (by linarith)]
      linarith
    · have : max (a * z) z ≤ z / 2 := max_le (by nlinarith) (by linarith)
      rw [abs_of_nonpos (by linarith), abs_of_nonpos (by linarith)]
      linarith
  have hp : 0 ≤ gaussianPDFReal 0 1 (z / 2) := gaussianPDFReal_nonneg _ _ _
  have h1 : |a * z - z| * gaussianPDFReal 0 1 (z / 2) ≤ 3 / 5 * |a - 1| := by
    have h2 := abs_mul_pdf_le (z / 2)
    rw [abs_div, abs_of_pos (show (0 : ℝ) < 2 by norm_num)] at h2
    rw [show a * z - z = (a - 1) * z by ring, abs_mul]
    nlinarith [abs_nonneg (a - 1), abs_nonneg z]
  refine le_trans ?_ h1
  rcases le_total z (a * z) with h | h
  · rw [abs_of_nonneg (sub_nonneg.2 (monotone_cdf _ h)), abs_of_nonneg (sub_nonneg.2 h)]
    exact phi_sub_le h (fun t ht => hb t (by rw [min_eq_right h]; exact ht.1.le) (by rw [max_eq_left h]; exact ht.2)) hp
  · rw [abs_sub_comm, abs_sub_comm (a * z), abs_of_nonneg (sub_nonneg.2 (monotone_cdf _ h)), abs_of_nonneg (sub_nonneg.2 h)]
    exact phi_sub_le h (fun t ht => hb t (by rw [min_eq_left h]; exact ht.1.le) (by rw [max_eq_right h]; exact ht.2)) hp

end HubToolbox.Prob
