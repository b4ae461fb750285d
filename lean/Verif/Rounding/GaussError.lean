import Verif.Rounding.GaussProps
import Verif.Rounding.NicdmError
import Verif.MPPar.Lipschitz
import Verif.MPPar.Real

/-!
# C222: accuracy of Mutual Proximity with independent normal distributions in double precision
-/

set_option autoImplicit false

namespace HubToolbox

namespace Ieee

section
variable {K : Type} [Field K] [LinearOrder K] [FloorRing K] [IsStrictOrderedRing K] (F : Ieee)

/-- Absolute error of rounding numbers which are at most `b`, underflow included. -/
theorem round_bound {x b : K} (h : |x| ≤ b) (h0 : 2 ^ F.emin ≤ b) (h1 : b ≤ 2 ^ F.emax) :
    ∃ y, F.round x = .fin y ∧ F.round y = .fin y ∧ |y - x| ≤ F.ulp K * b := by
  have hu := F.ulp_pos (K := K)
  have hu' := F.ulp_le (K := K)
  by_cases hx : x = 0 ∨ 2 ^ F.emin ≤ |x|
  · obtain ⟨y, hy, hf, he⟩ := F.round_rel hx (h.trans h1)
    exact ⟨y, hy, hf, he.trans (mul_le_mul_of_nonneg_left h hu.le)⟩
  · push Not at hx
    have hs : F.spacing x = F.emin - (F.p - 1) := by
      unfold spacing
      congr 1
      apply max_eq_right
      have := (Int.lt_zpow_iff_log_lt (b := 2) (r := |x|) (x := F.emin) (by norm_num) (abs_pos.2 hx.1)).1 (by simpa using hx.2)
      omega
    have he : |F.nearest x - x| ≤ F.ulp K * b := by
      refine (F.abs_nearest_sub x).trans ?_
      have e : (2 : K) ^ F.spacing x / 2 = F.ulp K * 2 ^ F.emin := by
        rw [hs]
        unfold ulp
        rw [← zpow_add₀ two_ne_zero, show F.emin - ((F.p : ℤ) - 1) = (-(F.p : ℤ) + F.emin) + 1 by ring,
          zpow_add_one₀ two_ne_zero]
        ring
      rw [e]
      exact mul_le_mul_of_nonneg_left h0 hu.le
    have hr : F.round x = .fin (F.nearest x) := by
      apply F.round_of_lt
      rw [zpow_add_one₀ two_ne_zero]
      have h2 : |F.nearest x| ≤ |F.nearest x - x| + |x| := by
        have := abs_add_le (F.nearest x - x) x
        simpa using this
      have hb : 0 ≤ b := (abs_nonneg x).trans h
      have h3 : F.ulp K * b ≤ 1 / 4 * b := mul_le_mul_of_nonneg_right hu' hb
      have h4 : (0 : K) < 2 ^ F.emax := zpow_pos two_pos _
      linarith
    exact ⟨_, hr, (F.rounding K).idem _ _ hr, he⟩

end

end Ieee

namespace Rounding

open MeasureTheory ProbabilityTheory
open Ieee (double)

/-- What is assumed of the functions of numpy and scipy in float64, besides `ProbLib.Ok`: roots are right up to two units of
roundoff; `norm.cdf` and `norm.sf` have an absolute error of at most `δ`. -/
structure ProbLib.Near (L : ProbLib ℝ) (δ : ℝ) : Prop where
  ok : L.Ok (double.rounding ℝ)
  sqrt_near : ∀ x : ℝ, 2 ^ (-900 : ℤ) ≤ x → x ≤ 2 ^ (900 : ℤ) → ∃ z, L.sqrt (.fin x) = .fin z ∧ |z - √x| ≤ 2 * u * √x
  cdf_near : ∀ x m s : ℝ, |x| ≤ 2 ^ (450 : ℤ) → |m| ≤ 2 ^ (450 : ℤ) → 2 ^ (-450 : ℤ) ≤ s → s ≤ 2 ^ (450 : ℤ) →
    ∃ y, L.cdf (.fin x) (.fin m) (.fin s) = .fin y ∧ |y - ProbabilityTheory.cdf (gaussianReal m (s ^ 2).toNNReal) x| ≤ δ
  sf_near : ∀ x m s : ℝ, |x| ≤ 2 ^ (450 : ℤ) → |m| ≤ 2 ^ (450 : ℤ) → 2 ^ (-450 : ℤ) ≤ s → s ≤ 2 ^ (450 : ℤ) →
    ∃ y, L.sf (.fin x) (.fin m) (.fin s) = .fin y ∧ |y - (1 - ProbabilityTheory.cdf (gaussianReal m (s ^ 2).toNNReal) x)| ≤ δ

/-! ### Mean and variance -/

theorem sum_le_of_abs_le {l : List ℝ} {B : ℝ} (h : ∀ x ∈ l, |x| ≤ B) : (l.map (|·|)).sum ≤ l.length * B := by
  induction l with
  | nil => simp
  | cons a l ih =>
    have := ih (fun x hx => h x (by simp [hx]))
    have := h a (by simp)
    simp only [List.map_cons, List.sum_cons, List.length_cons]
    push_cast
    linarith

theorem two_zpow_le {a b : ℤ} (h : a ≤ b) : (2 : ℝ) ^ a ≤ 2 ^ b := zpow_le_zpow_right₀ one_le_two h

theorem double_emin {b : ℝ} {a : ℤ} (ha : -1022 ≤ a) (h : 2 ^ a ≤ b) : (2 : ℝ) ^ double.emin ≤ b :=
  (two_zpow_le (by simpa [double] using ha)).trans h

theorem double_emax {b : ℝ} {a : ℤ} (ha : a ≤ 1023) (h : b ≤ 2 ^ a) : b ≤ (2 : ℝ) ^ double.emax :=
  h.trans (two_zpow_le (by simpa [double] using ha))

/-- Multiples of powers of two. -/
theorem mul_two_zpow_le {c b : ℝ} {k : ℕ} {a : ℤ} (hc : c ≤ 2 ^ k) (hb0 : 0 ≤ b) (hb : b ≤ 2 ^ a) : c * b ≤ 2 ^ (a + k) := by
  rw [zpow_add₀ two_ne_zero, zpow_natCast, mul_comm c]
  calc b * c ≤ b * 2 ^ k := mul_le_mul_of_nonneg_left hc hb0
    _ ≤ _ := mul_le_mul_of_nonneg_right hb (by positivity)

theorem div_ofNat (x : ℝ) {m : ℕ} (h0 : 0 < m) (hm : m ≤ 2 ^ 40) :
    (double.rounding ℝ).div (.fin x) ((double.rounding ℝ).ofNat m) = double.round (x / m) := by
  rw [double_ofNat (hm.trans (by norm_num))]
  have : (m : ℝ) ≠ 0 := by exact_mod_cast h0.ne'
  simp only [div, XR.div, if_neg this]
  rfl

theorem mu_le {m : ℕ} (hm : m ≤ 2 ^ 40) : (m : ℝ) * u ≤ 1 / 2 ^ 13 := by
  have h : (m : ℝ) ≤ 2 ^ 40 := by exact_mod_cast hm
  have e : u = 1 / 2 ^ 53 := by rw [u_eq]; norm_num
  rw [e, mul_one_div, div_le_iff₀ (by positivity)]
  refine h.trans ?_
  norm_num

/-- Sum of `m` numbers up to `B` and its error. -/
theorem sum_near {L : ProbLib ℝ} (hL : L.Ok (double.rounding ℝ)) (l : List ℝ) (h0 : 0 < l.length) (hm : l.length ≤ 2 ^ 40)
    {A : ℝ} (hA : (l.map (|·|)).sum ≤ A) (hAb : A ≤ 2 ^ (1000 : ℤ)) (hf : ∀ x ∈ l, double.round x = .fin x) :
    ∃ s, L.sum (l.map .fin) = .fin s ∧ |s - l.sum| ≤ 2 * ((l.length : ℝ) - 1) * u * A := by
  have hu := u_pos
  have hm' := mu_le hm
  have hp := pow_sub_one_le h0 hm
  have hm1 : (1 : ℝ) ≤ l.length := by exact_mod_cast h0
  have hA0 : 0 ≤ (l.map (|·|)).sum := List.sum_nonneg (by
    intro x hx
    obtain ⟨y, -, rfl⟩ := List.mem_map.1 hx
    exact abs_nonneg y)
  have h1 : (1 : ℝ) ≤ (1 + u) ^ (l.length - 1) := one_le_pow₀ (by linarith)
  have h2 : (1 + u) ^ (l.length - 1) ≤ 2 := by nlinarith
  obtain ⟨s, hs, -, he⟩ := Ieee.sum_error double (hL.sum_some_order (l.map .fin) (by
    intro a ha
    obtain ⟨x, hx, rfl⟩ := List.mem_map.1 ha
    exact hf x hx)) hf (by
      calc (1 + double.ulp ℝ) ^ (l.length - 1) * (l.map (|·|)).sum ≤ 2 * A := mul_le_mul h2 hA hA0 (by norm_num)
        _ ≤ 2 ^ ((1000 : ℤ) + (1 : ℕ)) := mul_two_zpow_le (by norm_num) (hA0.trans hA) hAb
        _ ≤ _ := two_zpow_le (by simp [double]))
  refine ⟨s, hs, he.trans ?_⟩
  exact mul_le_mul hp hA hA0 (by have := mul_nonneg (sub_nonneg.2 hm1) hu.le; linarith)

/-- The mean as computed. -/
theorem mean_near {L : ProbLib ℝ} (hL : L.Ok (double.rounding ℝ)) (l : List ℝ) (h0 : 0 < l.length) (hm : l.length ≤ 2 ^ 40)
    {B : ℝ} (hB : ∀ x ∈ l, |x| ≤ B) (hB0 : 2 ^ (-400 : ℤ) ≤ B) (hB1 : B ≤ 2 ^ (400 : ℤ))
    (hf : ∀ x ∈ l, double.round x = .fin x) :
    ∃ s m : ℝ, L.sum (l.map .fin) = .fin s ∧
      (double.rounding ℝ).div (.fin s) ((double.rounding ℝ).ofNat l.length) = .fin m ∧
      |m - l.sum / l.length| ≤ 2 * l.length * u * B := by
  have hu := u_pos
  have hm' := mu_le hm
  have hm1 : (1 : ℝ) ≤ l.length := by exact_mod_cast h0
  have hB' : 0 < B := (zpow_pos two_pos _).trans_le hB0
  have hS := sum_le_of_abs_le hB
  have hc : (l.length : ℝ) ≤ 2 ^ 40 := by exact_mod_cast hm
  obtain ⟨s, hs, he⟩ := sum_near hL l h0 hm hS
    ((mul_two_zpow_le hc hB'.le hB1).trans (two_zpow_le (by norm_num))) hf
  have hl : |l.sum| ≤ l.length * B := by
    refine le_trans ?_ hS
    clear * -
    induction l with
    | nil => simp
    | cons a l ih =>
      simp only [List.sum_cons, List.map_cons]
      exact (abs_add_le _ _).trans (by linarith)
  set m : ℝ := ((l.length : ℕ) : ℝ) with hmdef
  have hmp : 0 < m := by linarith
  have he' : |s / m - l.sum / m| ≤ 2 * (m - 1) * u * B := by
    rw [← sub_div, abs_div, abs_of_pos hmp, div_le_iff₀ hmp]
    linarith
  have hl' : |l.sum / m| ≤ B := by
    rw [abs_div, abs_of_pos hmp, div_le_iff₀ hmp]
    linarith
  have hmu : 2 * (m - 1) * u ≤ 1 := by nlinarith
  have hq : |s / m| ≤ (1 + 2 * (m - 1) * u) * B := by
    have := abs_add_le (s / m - l.sum / m) (l.sum / m)
    rw [sub_add_cancel] at this
    linarith
  have hfac : 1 ≤ 1 + 2 * (m - 1) * u := by nlinarith
  obtain ⟨y, hy, -, hye⟩ := Ieee.round_bound double (x := s / m) hq
    (double_emin (a := -400) (by norm_num) (hB0.trans (le_mul_of_one_le_left hB'.le hfac)))
    (double_emax (a := 400 + (1 : ℕ)) (by norm_num) (mul_two_zpow_le (by linarith) hB'.le hB1))
  refine ⟨s, y, hs, ?_, ?_⟩
  · rw [div_ofNat s h0 hm]
    exact hy
  · have := abs_sub_le y (s / m) (l.sum / m)
    have h3 : u * ((1 + 2 * (m - 1) * u) * B) ≤ u * (2 * B) :=
      mul_le_mul_of_nonneg_left (mul_le_mul_of_nonneg_right (by linarith) hB'.le) hu.le
    have h4 : |y - s / m| ≤ u * ((1 + 2 * (m - 1) * u) * B) := hye
    linarith

theorem list_sum_near {f g h : ℝ → ℝ} (l : List ℝ) (hl : ∀ x ∈ l, |f x - g x| ≤ h x) :
    |(l.map f).sum - (l.map g).sum| ≤ (l.map h).sum := by
  induction l with
  | nil => simp
  | cons a l ih =>
    have h1 := ih (fun x hx => hl x (by simp [hx]))
    have h2 := hl a (by simp)
    simp only [List.map_cons, List.sum_cons]
    have := abs_add_le (f a - g a) ((l.map f).sum - (l.map g).sum)
    rw [show f a + (l.map f).sum - (g a + (l.map g).sum) = (f a - g a) + ((l.map f).sum - (l.map g).sum) by ring]
    linarith

theorem list_sum_linear (g : ℝ → ℝ) (a b : ℝ) (l : List ℝ) :
    (l.map (fun x => a * g x + b)).sum = a * (l.map g).sum + l.length * b := by
  induction l with
  | nil => simp
  | cons x l ih =>
    simp only [List.map_cons, List.sum_cons, List.length_cons, ih]
    push_cast
    ring

/-- One squared deviation as computed. -/
theorem deviation_near {x c B σ e : ℝ} {y : ℝ} (hB1 : B ≤ 2 ^ (400 : ℤ)) (hσ0 : 2 ^ (-400 : ℤ) ≤ σ) (hσB : σ ≤ 2 * B)
    (hx : |x - y| ≤ 3 * B) (hd : |x - y - c| + 3 * u * B ≤ e) (he : e ≤ σ / 8) :
    ∃ q, (double.rounding ℝ).mul ((double.rounding ℝ).sub (.fin x) (.fin y)) ((double.rounding ℝ).sub (.fin x) (.fin y)) = .fin q ∧
      double.round q = .fin q ∧ |q - c ^ 2| ≤ (e / σ + 9 / 8 * u) * c ^ 2 + (9 / 8 * (e / σ) + 5 / 4 * u) * σ ^ 2 := by
  have hu := u_pos
  have hu' := u_tiny
  have hσ : 0 < σ := (zpow_pos two_pos _).trans_le hσ0
  have hB' : 0 < B := by linarith
  have e1 : (double.rounding ℝ).sub (.fin x) (.fin y) = double.round (x - y) := by
    simp [sub, XR.sub, XR.neg, XR.add, up, sub_eq_add_neg]; rfl
  obtain ⟨d, hd1, -, hd2⟩ := Ieee.round_bound double hx
    (double_emin (a := -401) (by norm_num) (by
      have e2 : (2 : ℝ) ^ (-400 : ℤ) = 2 * 2 ^ (-401 : ℤ) := by
        rw [show (-400 : ℤ) = -401 + 1 by norm_num, zpow_add_one₀ two_ne_zero, mul_comm]
      have : (0 : ℝ) < 2 ^ (-401 : ℤ) := zpow_pos two_pos _
      linarith))
    (double_emax (a := 400 + (2 : ℕ)) (by norm_num) (mul_two_zpow_le (by norm_num) hB'.le hB1))
  have hdc : |d - c| ≤ e := by
    have := abs_sub_le d (x - y) c
    have h4 : |d - (x - y)| ≤ u * (3 * B) := hd2
    linarith
  have he0 : 0 ≤ e := (abs_nonneg _).trans hdc
  -- the square of the deviation
  have hsq : |d ^ 2 - c ^ 2| ≤ e / σ * c ^ 2 + 9 / 8 * (e / σ) * σ ^ 2 := by
    have h1 : |d + c| ≤ 2 * |c| + e := by
      have := abs_add_le (d - c) (2 * c)
      rw [show d - c + 2 * c = d + c by ring, abs_mul, abs_of_pos (show (0 : ℝ) < 2 by norm_num)] at this
      linarith
    have h2 : |d ^ 2 - c ^ 2| ≤ e * (2 * |c| + e) := by
      rw [show d ^ 2 - c ^ 2 = (d - c) * (d + c) by ring, abs_mul]
      exact mul_le_mul hdc h1 (abs_nonneg _) he0
    have h3 : 2 * |c| ≤ c ^ 2 / σ + σ := by
      rw [← sub_nonneg, show c ^ 2 / σ + σ - 2 * |c| = (|c| - σ) ^ 2 / σ by
        field_simp
        rw [sub_sq, sq_abs]
        ring]
      positivity
    have h4 : e * (2 * |c| + e) ≤ e * (c ^ 2 / σ + σ + σ / 8) := mul_le_mul_of_nonneg_left (by linarith) he0
    refine (h2.trans h4).trans (le_of_eq ?_)
    field_simp
    ring
  have hr : e / σ ≤ 1 / 8 := by
    rw [div_le_iff₀ hσ]
    linarith
  have hr0 : 0 ≤ e / σ := div_nonneg he0 hσ.le
  have hc0 := sq_nonneg c
  have hs0 : 0 < σ ^ 2 := by positivity
  have hd3 : d ^ 2 ≤ 9 / 8 * c ^ 2 + 9 / 64 * σ ^ 2 := by
    have := (abs_le.1 hsq).2
    nlinarith
  have hcB : |c| ≤ 4 * B := by
    have h1 := abs_sub_le c (x - y) 0
    rw [sub_zero, sub_zero, abs_sub_comm] at h1
    have : 0 < 3 * u * B := by positivity
    linarith
  have hd4 : d ^ 2 + σ ^ 2 ≤ 32 * B ^ 2 := by
    have h1 : c ^ 2 ≤ 16 * B ^ 2 := by
      rw [← sq_abs c]
      nlinarith [abs_nonneg c]
    have h2 : σ ^ 2 ≤ 4 * B ^ 2 := by nlinarith
    nlinarith
  have hB2 : B ^ 2 ≤ 2 ^ (800 : ℤ) := by
    rw [show (800 : ℤ) = 400 + 400 by norm_num, zpow_add₀ two_ne_zero, sq]
    exact mul_le_mul hB1 hB1 hB'.le (zpow_pos two_pos _).le
  obtain ⟨q, hq1, hq2, hq3⟩ := Ieee.round_bound double (x := d * d) (b := d ^ 2 + σ ^ 2)
    (by rw [← sq, abs_of_nonneg (sq_nonneg d)]; linarith)
    (double_emin (a := -800) (by norm_num) (by
      have : (2 : ℝ) ^ (-800 : ℤ) ≤ σ ^ 2 := by
        rw [show (-800 : ℤ) = -400 + -400 by norm_num, zpow_add₀ two_ne_zero, sq]
        exact mul_le_mul hσ0 hσ0 (zpow_pos two_pos _).le hσ.le
      have := sq_nonneg d
      linarith))
    (double_emax (a := 800 + (5 : ℕ)) (by norm_num) (hd4.trans (mul_two_zpow_le (by norm_num) (by positivity) hB2)))
  refine ⟨q, ?_, hq2, ?_⟩
  · rw [e1, hd1]
    exact hq1
  · have h4 : |q - d * d| ≤ u * (d ^ 2 + σ ^ 2) := hq3
    have h5 := abs_sub_le q (d * d) (c ^ 2)
    rw [← sq] at h4 h5
    have h6 : u * (d ^ 2 + σ ^ 2) ≤ u * (9 / 8 * c ^ 2 + 5 / 4 * σ ^ 2) := mul_le_mul_of_nonneg_left (by linarith) hu.le
    linarith

theorem sum_sq_dev (a : ℝ) (l : List ℝ) :
    (l.map (fun x => (x - a) ^ 2)).sum = (l.map (fun x => x ^ 2)).sum - 2 * a * l.sum + l.length * a ^ 2 := by
  induction l with
  | nil => simp
  | cons x l ih =>
    simp only [List.map_cons, List.sum_cons, List.length_cons, ih]
    push_cast
    ring

/-- The standard deviation is at most the largest absolute value. -/
theorem std_le (l : List ℝ) (h0 : 0 < l.length) {B σ : ℝ} (hB : ∀ x ∈ l, |x| ≤ B) (hB0 : 0 ≤ B)
    (hσ : σ ^ 2 = (l.map (fun x => (x - l.sum / l.length) ^ 2)).sum / l.length) : σ ≤ B := by
  have hm : (0 : ℝ) < l.length := by exact_mod_cast h0
  have h1 : (l.map (fun x => x ^ 2)).sum ≤ l.length * B ^ 2 := by
    clear hσ hm h0
    induction l with
    | nil => simp
    | cons a l ih =>
      have := ih (fun x hx => hB x (by simp [hx]))
      have h2 := hB a (by simp)
      have : a ^ 2 ≤ B ^ 2 := by
        rw [← sq_abs a]
        exact pow_le_pow_left₀ (abs_nonneg a) h2 2
      simp only [List.map_cons, List.sum_cons, List.length_cons]
      push_cast
      linarith
  have h2 : σ ^ 2 ≤ B ^ 2 := by
    rw [hσ, div_le_iff₀ hm, sum_sq_dev]
    have : 2 * (l.sum / l.length) * l.sum = 2 * (l.length * (l.sum / l.length) ^ 2) := by
      field_simp
    have h3 : 0 ≤ (l.length : ℝ) * (l.sum / l.length) ^ 2 := by positivity
    rw [this]
    linarith
  exact le_of_sq_le_sq h2 hB0

/-- The sum of the squared deviations as computed. -/
theorem squares_near (l : List ℝ) {μ σ r : ℝ} {q : ℝ → ℝ} (hr0 : 0 ≤ r) (hr : r ≤ 1 / 8)
    (hS : (l.map (fun x => (x - μ) ^ 2)).sum = l.length * σ ^ 2)
    (hq : ∀ x ∈ l, |q x - (x - μ) ^ 2| ≤ (r + 9 / 8 * u) * (x - μ) ^ 2 + (9 / 8 * r + 5 / 4 * u) * σ ^ 2) :
    |(l.map q).sum - l.length * σ ^ 2| ≤ (17 / 8 * r + 19 / 8 * u) * (l.length * σ ^ 2) ∧
      ((l.map q).map (|·|)).sum ≤ 3 / 2 * (l.length * σ ^ 2) := by
  have hu := u_pos
  have hu' := u_tiny
  constructor
  · have hQ := list_sum_near (f := q) (g := fun x => (x - μ) ^ 2) l hq
    rw [list_sum_linear (fun x => (x - μ) ^ 2), hS] at hQ
    refine hQ.trans (le_of_eq ?_)
    ring
  · rw [List.map_map]
    have h1 := list_sum_near (f := (fun x => |x|) ∘ q) (g := fun x => (x - μ) ^ 2)
      (h := fun x => (r + 9 / 8 * u) * (x - μ) ^ 2 + (9 / 8 * r + 5 / 4 * u) * σ ^ 2) l (by
        intro x hx
        refine le_trans ?_ (hq x hx)
        have := abs_abs_sub_abs_le (q x) ((x - μ) ^ 2)
        rwa [abs_of_nonneg (sq_nonneg (x - μ))] at this)
    rw [list_sum_linear (fun x => (x - μ) ^ 2), hS] at h1
    have h2 := (abs_le.1 h1).2
    have h4 : r + 9 / 8 * u + (9 / 8 * r + 5 / 4 * u) ≤ 1 / 2 := by
      norm_num at hu'
      linarith
    have := mul_le_mul_of_nonneg_right h4 (show 0 ≤ l.length * σ ^ 2 by positivity)
    linarith

/-- The variance as computed from a computed mean. -/
theorem variance_near {L : ProbLib ℝ} {δ : ℝ} (hL : L.Near δ) (l : List ℝ) (h0 : 0 < l.length) (hm : l.length ≤ 2 ^ 40)
    {B σ κ mh : ℝ} (hB : ∀ x ∈ l, |x| ≤ B) (hB1 : B ≤ 2 ^ (400 : ℤ))
    (hσ : σ ^ 2 = (l.map (fun x => (x - l.sum / l.length) ^ 2)).sum / l.length) (hσ0 : 2 ^ (-400 : ℤ) ≤ σ) (hσB : σ ≤ B)
    (hκ1 : 1 ≤ κ) (hκ : B ≤ κ * σ) (hκn : 40 * l.length * κ * u ≤ 1) (hme : |mh - l.sum / l.length| ≤ 2 * l.length * u * B) :
    ∃ t v : ℝ, L.sum ((l.map .fin).map (fun x => (double.rounding ℝ).mul ((double.rounding ℝ).sub x (.fin mh))
      ((double.rounding ℝ).sub x (.fin mh)))) = .fin t ∧
      (double.rounding ℝ).div (.fin t) ((double.rounding ℝ).ofNat l.length) = .fin v ∧
      |v - σ ^ 2| ≤ 15 * (l.length * κ * u) * σ ^ 2 := by
  have hu := u_pos
  have hu' := u_tiny
  have hm' := mu_le hm
  have hm1 : (1 : ℝ) ≤ l.length := by exact_mod_cast h0
  have hσp : 0 < σ := (zpow_pos two_pos _).trans_le hσ0
  have hB' : 0 ≤ B := by linarith
  have hl : |l.sum / l.length| ≤ B := by
    have hmp : (0 : ℝ) < l.length := by linarith
    rw [abs_div, abs_of_pos hmp, div_le_iff₀ hmp]
    refine le_trans ?_ ((sum_le_of_abs_le hB).trans_eq (mul_comm _ _))
    clear * -
    induction l with
    | nil => simp
    | cons a l ih =>
      simp only [List.sum_cons, List.map_cons]
      exact (abs_add_le _ _).trans (by linarith)
  set m : ℝ := ((l.length : ℕ) : ℝ) with hmdef
  set μ : ℝ := l.sum / m with hμ
  have hmp : 0 < m := by linarith
  have hmκ : m * u ≤ m * κ * u := by
    have : m * u * 1 ≤ m * u * κ := mul_le_mul_of_nonneg_left hκ1 (by positivity)
    linarith
  have hκu : m * κ * u ≤ 1 / 40 := by linarith
  have huκ : u ≤ m * κ * u := by
    have : 1 * u ≤ m * u := mul_le_mul_of_nonneg_right hm1 hu.le
    linarith
  set e : ℝ := (2 * m + 3) * u * B with hedef
  have heσ : e ≤ 5 * (m * κ * u) * σ := by
    have h1 : (2 * m + 3) * u ≤ 5 * (m * u) := by nlinarith
    calc e ≤ 5 * (m * u) * B := mul_le_mul_of_nonneg_right h1 hB'
      _ ≤ 5 * (m * u) * (κ * σ) := mul_le_mul_of_nonneg_left hκ (by positivity)
      _ = _ := by ring
  have he8 : e ≤ σ / 8 := by nlinarith
  have he0 : 0 ≤ e := by positivity
  have hdev : ∀ x ∈ l, ∃ q, (double.rounding ℝ).mul ((double.rounding ℝ).sub (.fin x) (.fin mh))
      ((double.rounding ℝ).sub (.fin x) (.fin mh)) = .fin q ∧ double.round q = .fin q ∧
      |q - (x - μ) ^ 2| ≤ (e / σ + 9 / 8 * u) * (x - μ) ^ 2 + (9 / 8 * (e / σ) + 5 / 4 * u) * σ ^ 2 := by
    intro x hx
    have h1 := hB x hx
    have h2 : 2 * m * u * B ≤ 1 / 2 * B := mul_le_mul_of_nonneg_right (by linarith) hB'
    apply deviation_near hB1 hσ0 (by linarith) _ _ he8
    · have h3 := abs_sub_le x 0 μ
      have h4 := abs_sub_le x μ mh
      rw [sub_zero, zero_sub, abs_neg] at h3
      rw [abs_sub_comm μ mh] at h4
      linarith
    · rw [show x - mh - (x - μ) = -(mh - μ) by ring, abs_neg]
      rw [hedef]
      linarith
  choose! q hq1 hq2 hq3 using hdev
  have hr : e / σ ≤ 5 * (m * κ * u) := by
    rw [div_le_iff₀ hσp]
    exact heσ
  have hr0 : 0 ≤ e / σ := div_nonneg he0 hσp.le
  have hS : (l.map (fun x => (x - μ) ^ 2)).sum = m * σ ^ 2 := by
    rw [hσ]
    field_simp
  have hs2 : 0 < σ ^ 2 := by positivity
  obtain ⟨hQ', hA⟩ := squares_near l (r := e / σ) hr0 (by linarith) hS hq3
  have hσ4 : σ ^ 2 ≤ 2 ^ (800 : ℤ) := by
    rw [show (800 : ℤ) = 400 + 400 by norm_num, zpow_add₀ two_ne_zero, sq]
    exact mul_le_mul (hσB.trans hB1) (hσB.trans hB1) hσp.le (zpow_pos two_pos _).le
  have hσ5 : (2 : ℝ) ^ (-800 : ℤ) ≤ σ ^ 2 := by
    rw [show (-800 : ℤ) = -400 + -400 by norm_num, zpow_add₀ two_ne_zero, sq]
    exact mul_le_mul hσ0 hσ0 (zpow_pos two_pos _).le hσp.le
  have hc : m ≤ 2 ^ 40 := by rw [hmdef]; exact_mod_cast hm
  have hlen : (l.map q).length = l.length := List.length_map _
  obtain ⟨t, ht, hte⟩ := sum_near hL.ok (l.map q) (by rw [hlen]; exact h0) (by rw [hlen]; exact hm) hA (by
      have h1 : m * σ ^ 2 ≤ 2 ^ (800 + (40 : ℕ) : ℤ) := mul_two_zpow_le hc hs2.le hσ4
      have h2 := mul_two_zpow_le (c := 3 / 2) (k := 1) (by norm_num) (by positivity) h1
      exact h2.trans (two_zpow_le (by norm_num))) (by
      intro y hy
      obtain ⟨x, hx, rfl⟩ := List.mem_map.1 hy
      exact hq2 x hx)
  rw [hlen, ← hmdef] at hte
  have hT : |t / m - σ ^ 2| ≤ (17 / 8 * (e / σ) + 19 / 8 * u + 3 * (m - 1) * u) * σ ^ 2 := by
    rw [show t / m - σ ^ 2 = (t - m * σ ^ 2) / m by field_simp, abs_div, abs_of_pos hmp, div_le_iff₀ hmp]
    have := abs_sub_le t (l.map q).sum (m * σ ^ 2)
    linarith
  have hmu' : (m - 1) * u ≤ 1 / 2 ^ 13 := by nlinarith
  have hT2 : |t / m| ≤ 2 * σ ^ 2 := by
    have h1 := abs_sub_le (t / m) (σ ^ 2) 0
    rw [sub_zero, sub_zero, abs_of_pos hs2] at h1
    have h4 : 17 / 8 * (e / σ) + 19 / 8 * u + 3 * (m - 1) * u ≤ 1 := by
      norm_num at hu' hmu'
      linarith
    have := mul_le_mul_of_nonneg_right h4 hs2.le
    linarith
  obtain ⟨v, hv1, -, hv2⟩ := Ieee.round_bound double hT2
    (double_emin (a := -800) (by norm_num) (by linarith))
    (double_emax (a := 800 + (1 : ℕ)) (by norm_num) (mul_two_zpow_le (by norm_num) hs2.le hσ4))
  have hV : |v - σ ^ 2| ≤ 15 * (m * κ * u) * σ ^ 2 := by
    have h1 := abs_sub_le v (t / m) (σ ^ 2)
    have h2 : |v - t / m| ≤ u * (2 * σ ^ 2) := hv2
    have h3 : 17 / 8 * (e / σ) + 19 / 8 * u + 3 * (m - 1) * u + 2 * u ≤ 15 * (m * κ * u) := by nlinarith
    have := mul_le_mul_of_nonneg_right h3 hs2.le
    linarith
  refine ⟨t, v, ?_, ?_, hV⟩
  · have hmap : (l.map XR.fin).map (fun x => (double.rounding ℝ).mul ((double.rounding ℝ).sub x (.fin mh))
        ((double.rounding ℝ).sub x (.fin mh))) = (l.map q).map .fin := by
      rw [List.map_map, List.map_map]
      apply List.map_congr_left
      intro x hx
      exact hq1 x hx
    rw [hmap, ht]
  · rw [div_ofNat t h0 hm]
    exact hv1

theorem mean_abs_le (l : List ℝ) (h0 : 0 < l.length) {B : ℝ} (hB : ∀ x ∈ l, |x| ≤ B) : |l.sum / l.length| ≤ B := by
  have hmp : (0 : ℝ) < l.length := by exact_mod_cast h0
  rw [abs_div, abs_of_pos hmp, div_le_iff₀ hmp]
  refine le_trans ?_ ((sum_le_of_abs_le hB).trans_eq (mul_comm _ _))
  clear * -
  induction l with
  | nil => simp
  | cons a l ih =>
    simp only [List.sum_cons, List.map_cons]
    exact (abs_add_le _ _).trans (by linarith)

/-- Mean and standard deviation as computed. -/
theorem params_near {L : ProbLib ℝ} {δ : ℝ} (hL : L.Near δ) (l : List ℝ) (h0 : 0 < l.length) (hm : l.length ≤ 2 ^ 40)
    {B σ κ : ℝ} (hB : ∀ x ∈ l, |x| ≤ B) (hB1 : B ≤ 2 ^ (400 : ℤ)) (hf : ∀ x ∈ l, double.round x = .fin x)
    (hσ : σ ^ 2 = (l.map (fun x => (x - l.sum / l.length) ^ 2)).sum / l.length) (hσ0 : 2 ^ (-400 : ℤ) ≤ σ)
    (hκ : B ≤ κ * σ) (hκn : 40 * l.length * κ * u ≤ 1) :
    ∃ m s : ℝ, (double.rounding ℝ).gaussParams L (l.map .fin) = (.fin m, .fin s) ∧
      |m - l.sum / l.length| ≤ 2 * l.length * u * B ∧ |s - σ| ≤ 20 * l.length * κ * u * σ := by
  have hu := u_pos
  have hu' := u_tiny
  have hm' := mu_le hm
  have hm1 : (1 : ℝ) ≤ l.length := by exact_mod_cast h0
  have hσp : 0 < σ := (zpow_pos two_pos _).trans_le hσ0
  have hB' : 0 ≤ B := by
    obtain ⟨x, hx⟩ := List.exists_mem_of_length_pos h0
    exact (abs_nonneg x).trans (hB x hx)
  have hσB := std_le l h0 hB hB' hσ
  have hκ1 : 1 ≤ κ := by
    by_contra h
    push Not at h
    nlinarith
  obtain ⟨s, mh, hs, hmh, hme⟩ := mean_near hL.ok l h0 hm hB (hσ0.trans hσB) hB1 hf
  obtain ⟨t, v, ht, hv1, hV⟩ := variance_near hL l h0 hm hB hB1 hσ hσ0 hσB hκ1 hκ hκn hme
  set m : ℝ := ((l.length : ℕ) : ℝ) with hmdef
  have hmκ : m * u ≤ m * κ * u := by
    have : m * u * 1 ≤ m * u * κ := mul_le_mul_of_nonneg_left hκ1 (by positivity)
    linarith
  have hκu : m * κ * u ≤ 1 / 40 := by linarith
  have huκ : u ≤ m * κ * u := by
    have : 1 * u ≤ m * u := mul_le_mul_of_nonneg_right hm1 hu.le
    linarith
  have hs2 : 0 < σ ^ 2 := by positivity
  have hσ4 : σ ^ 2 ≤ 2 ^ (800 : ℤ) := by
    rw [show (800 : ℤ) = 400 + 400 by norm_num, zpow_add₀ two_ne_zero, sq]
    exact mul_le_mul (hσB.trans hB1) (hσB.trans hB1) hσp.le (zpow_pos two_pos _).le
  have hσ5 : (2 : ℝ) ^ (-800 : ℤ) ≤ σ ^ 2 := by
    rw [show (-800 : ℤ) = -400 + -400 by norm_num, zpow_add₀ two_ne_zero, sq]
    exact mul_le_mul hσ0 hσ0 (zpow_pos two_pos _).le hσp.le
  have hv3 : 5 / 8 * σ ^ 2 ≤ v := by
    have := (abs_le.1 hV).1
    nlinarith
  have hv4 : v ≤ 4 * σ ^ 2 := by
    have := (abs_le.1 hV).2
    nlinarith
  have hv0 : 0 < v := by linarith
  have hR : |√v - σ| ≤ 15 * (m * κ * u) * σ := by
    have hqs : √v ^ 2 = v := Real.sq_sqrt hv0.le
    have hq0 : 0 < √v := Real.sqrt_pos.2 hv0
    have h1 : |√v - σ| * (√v + σ) ≤ 15 * (m * κ * u) * σ ^ 2 := by
      rw [← abs_of_pos (show 0 < √v + σ by linarith), ← abs_mul, show (√v - σ) * (√v + σ) = v - σ ^ 2 by linear_combination hqs]
      exact hV
    have h2 : |√v - σ| * σ ≤ 15 * (m * κ * u) * σ * σ := by
      have := mul_nonneg (abs_nonneg (√v - σ)) hq0.le
      nlinarith
    exact le_of_mul_le_mul_right h2 hσp
  obtain ⟨r, hr1, hr2⟩ := hL.sqrt_near v (by
      have h1 : (2 : ℝ) ^ (-900 : ℤ) ≤ 1 / 2 * 2 ^ (-800 : ℤ) := by
        have e : (1 : ℝ) / 2 * 2 ^ (-800 : ℤ) = 2 ^ (-801 : ℤ) := by
          rw [one_div, ← zpow_neg_one, ← zpow_add₀ two_ne_zero]; norm_num
        rw [e]
        exact two_zpow_le (by norm_num)
      linarith) (by
      have := mul_two_zpow_le (c := 4) (k := 2) (by norm_num) hs2.le hσ4
      exact (hv4.trans this).trans (two_zpow_le (by norm_num)))
  have hrσ : |r - σ| ≤ 20 * m * κ * u * σ := by
    have h1 := abs_sub_le r (√v) σ
    have h2 : √v ≤ 2 * σ := by
      have := (abs_le.1 hR).2
      nlinarith
    have h3 : 2 * u * √v ≤ 2 * u * (2 * σ) := mul_le_mul_of_nonneg_left h2 (by linarith)
    have h4 : u * σ ≤ m * κ * u * σ := mul_le_mul_of_nonneg_right huκ hσp.le
    have h5 : 0 < u * σ := mul_pos hu hσp
    linarith
  refine ⟨mh, r, ?_, hme, hrσ⟩
  unfold gaussParams nanmean nanvar
  rw [List.length_map, if_neg (by omega), hs, hmh]
  simp only [hmh]
  rw [ht, Nat.sub_zero, hv1, hr1]
  have hrp : r ≠ 0 := by
    have := (abs_le.1 hrσ).1
    intro h
    rw [h] at this
    nlinarith
  unfold noZero
  rw [if_neg (fun h => hrp (XR.fin.inj h))]

/-! ### Probabilities -/

/-- The effect of errors in mean and standard deviation on a probability. -/
theorem prob_near {x μ σ m s B κ ν : ℝ} (hσ : 0 < σ) (hκ : B ≤ κ * σ) (hν : 0 ≤ ν) (hν1 : 40 * (ν * κ * u) ≤ 1) (hκ0 : 0 ≤ κ)
    (hm : |m - μ| ≤ 2 * ν * u * B) (hs : |s - σ| ≤ 20 * ν * κ * u * σ) :
    0 < s ∧ |ProbabilityTheory.cdf (gaussianReal m (s ^ 2).toNNReal) x - ProbabilityTheory.cdf (gaussianReal 0 1) ((x - μ) / σ)| ≤
      26 * (ν * κ * u) := by
  have hu := u_pos
  set e := ν * κ * u with he
  have he0 : 0 ≤ e := by positivity
  have hs' : |s - σ| ≤ 20 * e * σ := by rw [he]; linarith
  have h1 : 20 * e * σ ≤ 1 / 2 * σ := mul_le_mul_of_nonneg_right (by linarith) hσ.le
  have hlo : σ / 2 ≤ s := by
    have := (abs_le.1 hs').1
    linarith
  have hhi : s ≤ 3 / 2 * σ := by
    have := (abs_le.1 hs').2
    linarith
  have hsp : 0 < s := by linarith
  refine ⟨hsp, ?_⟩
  rw [Prob.cdf_gaussian m s hsp x]
  have hA : |(x - m) / s - (x - μ) / s| ≤ 4 * e := by
    rw [← sub_div, show x - m - (x - μ) = -(m - μ) by ring, abs_div, abs_neg, abs_of_pos hsp, div_le_iff₀ hsp]
    have h2 : 2 * ν * u * B ≤ 2 * ν * u * (κ * σ) := mul_le_mul_of_nonneg_left hκ (by positivity)
    have h3 : 4 * e * (σ / 2) ≤ 4 * e * s := mul_le_mul_of_nonneg_left hlo (by linarith)
    have h4 : 2 * ν * u * (κ * σ) = 4 * e * (σ / 2) := by rw [he]; ring
    linarith
  have hB := Prob.phi_lipschitz ((x - m) / s) ((x - μ) / s)
  have ha : 1 / 2 ≤ σ / s := by
    rw [le_div_iff₀ hsp]
    linarith
  have ha1 : |σ / s - 1| ≤ 40 * e := by
    rw [show σ / s - 1 = -(s - σ) / s by field_simp; ring, abs_div, abs_neg, abs_of_pos hsp, div_le_iff₀ hsp]
    have h3 : 40 * e * (σ / 2) ≤ 40 * e * s := mul_le_mul_of_nonneg_left hlo (by linarith)
    linarith
  have hC := Prob.phi_scale ha ((x - μ) / σ)
  have e2 : σ / s * ((x - μ) / σ) = (x - μ) / s := by field_simp
  rw [e2] at hC
  have := abs_sub_le (ProbabilityTheory.cdf (gaussianReal 0 1) ((x - m) / s)) (ProbabilityTheory.cdf (gaussianReal 0 1) ((x - μ) / s))
    (ProbabilityTheory.cdf (gaussianReal 0 1) ((x - μ) / σ))
  linarith

/-- Products of approximate probabilities. -/
theorem prob_mul {p q p' q' η : ℝ} (hp : 0 ≤ p) (hp1 : p ≤ 1) (hq' : 0 ≤ q') (hq1 : q' ≤ 1) (h : |p' - p| ≤ η) (h' : |q' - q| ≤ η) :
    |p' * q' - p * q| ≤ 2 * η := by
  have hη : 0 ≤ η := (abs_nonneg _).trans h
  have h1 : p' * q' - p * q = (p' - p) * q' + p * (q' - q) := by ring
  rw [h1]
  refine (abs_add_le _ _).trans ?_
  rw [abs_mul, abs_mul, abs_of_nonneg hq', abs_of_nonneg hp]
  have h2 : |p' - p| * q' ≤ η * 1 := mul_le_mul h hq1 hq' hη
  have h3 : p * |q' - q| ≤ 1 * η := mul_le_mul hp1 h' (abs_nonneg _) zero_le_one
  linarith

theorem round_unit {x : ℝ} (h : |x| ≤ 1) : ∃ y, double.round x = .fin y ∧ |y - x| ≤ u := by
  obtain ⟨y, hy, -, he⟩ := Ieee.round_bound double h (double_emin (a := 0) (by norm_num) (by norm_num))
    (double_emax (a := 0) (by norm_num) (by norm_num))
  refine ⟨y, hy, ?_⟩
  rw [mul_one] at he
  exact he

/-- One entry as computed. -/
theorem gaussEntry_near {L : ProbLib ℝ} {δ : ℝ} (hL : L.Near δ) (metric : String) {x m s m' s' p q η : ℝ} (hx : |x| ≤ 2 ^ (450 : ℤ))
    (hm : |m| ≤ 2 ^ (450 : ℤ)) (hs0 : 2 ^ (-450 : ℤ) ≤ s) (hs1 : s ≤ 2 ^ (450 : ℤ))
    (hm' : |m'| ≤ 2 ^ (450 : ℤ)) (hs0' : 2 ^ (-450 : ℤ) ≤ s') (hs1' : s' ≤ 2 ^ (450 : ℤ))
    (hp0 : 0 ≤ p) (hp1 : p ≤ 1)
    (hp : |ProbabilityTheory.cdf (gaussianReal m (s ^ 2).toNNReal) x - p| ≤ η)
    (hq : |ProbabilityTheory.cdf (gaussianReal m' (s' ^ 2).toNNReal) x - q| ≤ η) :
    ∃ y, (double.rounding ℝ).gaussEntry L metric (.fin x) (.fin m) (.fin s) (.fin m') (.fin s') = .fin y ∧
      |y - Spec.mutualProximity metric p q| ≤ 2 * (δ + η) + 2 * u := by
  have hu := u_pos
  have hunit : ∀ {a : XR ℝ} {y : ℝ}, a = .fin y → NanOrUnit a → 0 ≤ y ∧ y ≤ 1 := by
    rintro a y rfl (h | ⟨z, h, h0, h1⟩)
    · exact absurd h (by simp)
    · rw [XR.fin.inj h]
      exact ⟨h0, h1⟩
  unfold gaussEntry Spec.mutualProximity
  by_cases hmet : metric = "similarity"
  · rw [if_pos hmet, if_pos hmet]
    obtain ⟨y, hy, hye⟩ := hL.cdf_near x m s hx hm hs0 hs1
    obtain ⟨y', hy', hye'⟩ := hL.cdf_near x m' s' hx hm' hs0' hs1'
    obtain ⟨y0, y1⟩ := hunit hy (hL.ok.cdf_unit _ _ _)
    obtain ⟨y0', y1'⟩ := hunit hy' (hL.ok.cdf_unit _ _ _)
    have h1 : |y - p| ≤ δ + η := (abs_sub_le _ _ _).trans (add_le_add hye hp)
    have h2 : |y' - q| ≤ δ + η := (abs_sub_le _ _ _).trans (add_le_add hye' hq)
    have h3 := prob_mul hp0 hp1 y0' y1' h1 h2
    obtain ⟨w, hw, hwe⟩ := round_unit (x := y * y') (by
      rw [abs_of_nonneg (mul_nonneg y0 y0')]
      exact mul_le_one₀ y1 y0' y1')
    refine ⟨w, ?_, ?_⟩
    · rw [hy, hy']
      exact hw
    · have := abs_sub_le w (y * y') (p * q)
      linarith
  · rw [if_neg hmet, if_neg hmet]
    obtain ⟨y, hy, hye⟩ := hL.sf_near x m s hx hm hs0 hs1
    obtain ⟨y', hy', hye'⟩ := hL.sf_near x m' s' hx hm' hs0' hs1'
    obtain ⟨y0, y1⟩ := hunit hy (hL.ok.sf_unit _ _ _)
    obtain ⟨y0', y1'⟩ := hunit hy' (hL.ok.sf_unit _ _ _)
    have hc : ∀ {a b : ℝ}, |a - b| ≤ η → |(1 - a) - (1 - b)| ≤ η := by
      intro a b h
      rwa [show (1 - a) - (1 - b) = -(a - b) by ring, abs_neg]
    have h1 : |y - (1 - p)| ≤ δ + η := (abs_sub_le _ _ _).trans (add_le_add hye (hc hp))
    have h2 : |y' - (1 - q)| ≤ δ + η := (abs_sub_le _ _ _).trans (add_le_add hye' (hc hq))
    have h3 := prob_mul (by linarith) (by linarith) y0' y1' h1 h2
    obtain ⟨w, hw, hwe⟩ := round_unit (x := y * y') (by
      rw [abs_of_nonneg (mul_nonneg y0 y0')]
      exact mul_le_one₀ y1 y0' y1')
    obtain ⟨w0, w1⟩ : 0 ≤ w ∧ w ≤ 1 := by
      obtain ⟨z, hz, z0, z1⟩ := (double.rounding ℝ).unit (mul_nonneg y0 y0') (mul_le_one₀ y1 y0' y1')
      have : w = z := XR.fin.inj (hw.symm.trans hz)
      rw [this]
      exact ⟨z0, z1⟩
    obtain ⟨v, hv, hve⟩ := round_unit (x := 1 - w) (by rw [abs_of_nonneg (by linarith)]; linarith)
    refine ⟨v, ?_, ?_⟩
    · rw [hy, hy']
      have e1 : (double.rounding ℝ).mul (.fin y) (.fin y') = .fin w := hw
      rw [e1]
      have e2 : (double.rounding ℝ).sub (.fin 1) (.fin w) = double.round (1 - w) := by
        simp [sub, XR.sub, XR.neg, XR.add, up, sub_eq_add_neg]; rfl
      rw [e2, hv]
    · have h4 := abs_sub_le v (1 - w) (1 - (1 - p) * (1 - q))
      have h5 := abs_sub_le w (y * y') ((1 - p) * (1 - q))
      have h6 : |1 - w - (1 - (1 - p) * (1 - q))| = |w - (1 - p) * (1 - q)| := by
        rw [show 1 - w - (1 - (1 - p) * (1 - q)) = -(w - (1 - p) * (1 - q)) by ring, abs_neg]
      linarith

/-! ### The matrix -/

/-- Data for which the bound holds: floats up to `B ≤ 2 ^ 400`; the distances of each object to the other training objects have a
standard deviation which is not tiny and at least `B / κ`. -/
structure Spread {n : ℕ} (D : Fin n → Fin n → ℝ) (test : Option (List ℤ)) (B κ : ℝ) : Prop where
  float : ∀ i j, double.round (D i j) = .fin (D i j)
  le : ∀ i j, |D i j| ≤ B
  B_le : B ≤ 2 ^ (400 : ℤ)
  std : ∀ j, 2 ^ (-400 : ℤ) ≤ Spec.stdDev ((Spec.training n test).erase j) (fun c => D c j)
  ratio : ∀ j, B ≤ κ * Spec.stdDev ((Spec.training n test).erase j) (fun c => D c j)

theorem Spread.nonempty {n : ℕ} {D : Fin n → Fin n → ℝ} {test : Option (List ℤ)} {B κ : ℝ} (h : Spread D test B κ) (j : Fin n) :
    ((Spec.training n test).erase j).Nonempty :=
  MPPar.nonempty_of_std ((zpow_pos two_pos _).trans_le (h.std j)).ne'

/-- **C222**. Let the standard deviation of the distances of each object be at least `1 / κ` of the largest distance. Then the
secondary distances (similarities) computed by `mutual_proximity_gaussi` in float64 differ from the exact ones by at most
`2 δ + 54 n κ 2^-53` for `n` objects, where `δ` bounds the error of the distribution functions of scipy. The bound is linear in
the number of objects and in `κ`, and holds for any order of the additions in sums. -/
theorem C222 (L : ProbLib ℝ) {δ : ℝ} (hL : L.Near δ) {n : ℕ} (hn : n ≤ 2 ^ 40) (D : Fin n → Fin n → ℝ) (test : Option (List ℤ))
    {B κ : ℝ} (hD : Spread D test B κ) (metric : String) (hm : Spec.IsMetric metric) (mn : ℤ) :
    ∃ M M' : Fin n → Fin n → ℝ,
      MPPar.gaussi MPPar.scipy (.mat false n n D) metric 0 mn test none = .ok ⟨n, n, fun i j => .fin (M i j)⟩ ∧
      (double.rounding ℝ).gaussi L (fun i j => .fin (D i j)) metric test = .ok ⟨n, fun i j => .fin (M' i j)⟩ ∧
      ∀ i j, |M' i j - M i j| ≤ 2 * δ + 54 * n * κ * 2 ^ (-53 : ℤ) := by
  have hu := u_pos
  rw [← u_eq]
  have hT := LS.trainInd_toFinset n test
  have hN := LS.trainInd_nodup n test
  have hδ : 0 ≤ δ := by
    obtain ⟨y, -, h⟩ := hL.cdf_near 0 0 1 (by simpa using (zpow_pos two_pos _).le) (by simpa using (zpow_pos two_pos _).le)
      (zpow_le_one_of_nonpos₀ one_le_two (by norm_num)) (one_le_zpow₀ one_le_two (by norm_num))
    exact (abs_nonneg _).trans h
  have hκ0 : ∀ j : Fin n, 0 ≤ κ := by
    intro j
    have h1 := (abs_nonneg _).trans (hD.le j j)
    have h2 := (zpow_pos two_pos _).trans_le (hD.std j)
    by_contra h
    push Not at h
    have := hD.ratio j
    nlinarith
  refine ⟨MPPar.gaussM MPPar.scipy metric (Spec.training n test) D, ?_⟩
  have hunit : ∀ i j, 0 ≤ MPPar.gaussM MPPar.scipy metric (Spec.training n test) D i j ∧
      MPPar.gaussM MPPar.scipy metric (Spec.training n test) D i j ≤ 1 := by
    intro i j
    unfold MPPar.gaussM
    split_ifs
    · exact MPPar.ownValue_unit metric
    · have h1 := fun x => MPPar.scipy.phi_nonneg x
      have h2 := fun x => MPPar.scipy.phi_le_one x
      exact ⟨MPPar.mp_nonneg metric (h1 _) (h2 _) (h1 _) (h2 _), MPPar.mp_le_one metric (h1 _) (h2 _) (h1 _) (h2 _)⟩
  by_cases hsmall : 40 * (n * κ * u) ≤ 1
  · -- mean and standard deviation of each object
    have hpar : ∀ j : Fin n, ∃ m s : ℝ, (double.rounding ℝ).gaussParams L
        (colVals (fun i j => .fin (D i j)) (LS.trainInd n test) j) = (.fin m, .fin s) ∧
        |m| ≤ 2 ^ (450 : ℤ) ∧ 2 ^ (-450 : ℤ) ≤ s ∧ s ≤ 2 ^ (450 : ℤ) ∧
        ∀ x, |ProbabilityTheory.cdf (gaussianReal m (s ^ 2).toNNReal) x -
          Spec.normalProb MPPar.scipy.phi ((Spec.training n test).erase j) (fun c => D c j) x| ≤ 26 * (n * κ * u) := by
      intro j
      have hκ := hκ0 j
      have hlen := MPPar.colVals_length D (LS.trainInd n test) hN j
      have hmean := MPPar.colVals_mean D (LS.trainInd n test) hN j
      have hsq := MPPar.colVals_sq D (LS.trainInd n test) hN j
      rw [hT] at hlen hmean
      simp only [hT] at hsq
      set l := MPPar.colVals D (LS.trainInd n test) j with hl
      have h0 : 0 < l.length := by rw [hlen]; exact Finset.card_pos.2 (hD.nonempty j)
      have hln : l.length ≤ n := by
        rw [hlen]
        exact (Finset.card_le_univ _).trans_eq (Fintype.card_fin n)
      have hln' : (l.length : ℝ) ≤ n := by exact_mod_cast hln
      have hmem : ∀ x ∈ l, ∃ i, x = D i j := by
        intro x hx
        rw [hl, MPPar.colVals] at hx
        obtain ⟨i, -, rfl⟩ := List.mem_map.1 hx
        exact ⟨i, rfl⟩
      have hlB : ∀ x ∈ l, |x| ≤ B := by
        intro x hx
        obtain ⟨i, rfl⟩ := hmem x hx
        exact hD.le i j
      have hlκ : (l.length : ℝ) * κ * u ≤ n * κ * u :=
        mul_le_mul_of_nonneg_right (mul_le_mul_of_nonneg_right hln' hκ) hu.le
      have hvar : Spec.stdDev ((Spec.training n test).erase j) (fun c => D c j) ^ 2 =
          (l.map (fun x => (x - l.sum / l.length) ^ 2)).sum / l.length := by
        rw [hsq, hmean, hlen]
        exact Real.sq_sqrt (MPPar.variance_nonneg _ _)
      obtain ⟨m, s, hp, hme, hse⟩ := params_near hL l h0 (hln.trans hn) hlB hD.B_le (by
        intro x hx
        obtain ⟨i, rfl⟩ := hmem x hx
        exact hD.float i j) hvar (hD.std j) (hD.ratio j) (by linarith)
      have hμB := mean_abs_le l h0 hlB
      have hstdB := std_le l h0 hlB ((abs_nonneg _).trans (hD.le j j)) hvar
      rw [hmean] at hme hμB
      set σ := Spec.stdDev ((Spec.training n test).erase j) (fun c => D c j) with hσdef
      have hσp : 0 < σ := (zpow_pos two_pos _).trans_le (hD.std j)
      have hB0 : 0 < B := by linarith
      have hme' : |m - Spec.meanOver ((Spec.training n test).erase j) (fun c => D c j)| ≤ 2 * n * u * B :=
        hme.trans (mul_le_mul_of_nonneg_right (mul_le_mul_of_nonneg_right (by linarith) hu.le) hB0.le)
      have hse' : |s - σ| ≤ 20 * n * κ * u * σ :=
        hse.trans (mul_le_mul_of_nonneg_right (by linarith) hσp.le)
      have hse2 : |s - σ| ≤ 1 / 2 * σ := hse'.trans (mul_le_mul_of_nonneg_right (by linarith) hσp.le)
      have hnu := mu_le hn
      have hme2 : |m - Spec.meanOver ((Spec.training n test).erase j) (fun c => D c j)| ≤ B := by
        refine hme'.trans ?_
        have : 2 * n * u ≤ 1 := by
          norm_num at hnu
          linarith
        nlinarith
      refine ⟨m, s, ?_, ?_, ?_, ?_, ?_⟩
      · rw [colVals_fin]
        exact hp
      · have h1 := abs_sub_le m (Spec.meanOver ((Spec.training n test).erase j) (fun c => D c j)) 0
        rw [sub_zero, sub_zero] at h1
        have h2 : 2 * B ≤ 2 ^ ((400 : ℤ) + (1 : ℕ)) := mul_two_zpow_le (by norm_num) hB0.le hD.B_le
        have h3 : (2 : ℝ) ^ ((400 : ℤ) + (1 : ℕ)) ≤ 2 ^ (450 : ℤ) := two_zpow_le (by norm_num)
        linarith
      · have h1 := (abs_le.1 hse2).1
        have h2 : (2 : ℝ) ^ (-450 : ℤ) ≤ 2 ^ (-401 : ℤ) := two_zpow_le (by norm_num)
        have e2 : (2 : ℝ) ^ (-400 : ℤ) = 2 * 2 ^ (-401 : ℤ) := by
          rw [show (-400 : ℤ) = -401 + 1 by norm_num, zpow_add_one₀ two_ne_zero, mul_comm]
        have h3 := hD.std j
        rw [← hσdef] at h3
        linarith
      · have h1 := (abs_le.1 hse2).2
        have h2 : 2 * B ≤ 2 ^ ((400 : ℤ) + (1 : ℕ)) := mul_two_zpow_le (by norm_num) hB0.le hD.B_le
        have h3 : (2 : ℝ) ^ ((400 : ℤ) + (1 : ℕ)) ≤ 2 ^ (450 : ℤ) := two_zpow_le (by norm_num)
        have h4 : s ≤ 2 * B := by
          clear h2 h3
          linarith
        exact h4.trans (h2.trans h3)
      · intro x
        have := (prob_near (x := x) (ν := n) hσp (hD.ratio j) (by positivity) hsmall hκ hme' hse').2
        unfold Spec.normalProb Spec.guard
        rw [if_neg (by rw [← hσdef]; exact hσp.ne')]
        exact this
    choose mh sh hpar hmb hs0 hs1 hprob using hpar
    have hxb : ∀ i j, |D i j| ≤ 2 ^ (450 : ℤ) := fun i j =>
      (hD.le i j).trans (hD.B_le.trans (two_zpow_le (by norm_num)))
    have hent := fun i j => gaussEntry_near hL metric (hxb i j) (hmb i) (hs0 i) (hs1 i) (hmb j) (hs0 j) (hs1 j)
      (MPPar.scipy.phi_nonneg _) (MPPar.scipy.phi_le_one _) (hprob i (D i j)) (hprob j (D i j))
    choose E hE hEe using hent
    have hb2 : ∀ j : Fin n, 2 * (δ + 26 * (n * κ * u)) + 2 * u ≤ 2 * δ + 54 * n * κ * u := by
      intro j
      have h1 : (1 : ℝ) ≤ n := by exact_mod_cast j.pos
      have h2 : 1 ≤ κ := by
        have hσp := (zpow_pos two_pos _).trans_le (hD.std j)
        have hvar : Spec.stdDev ((Spec.training n test).erase j) (fun c => D c j) ≤ B := by
          have hlen := MPPar.colVals_length D (LS.trainInd n test) hN j
          have hmean := MPPar.colVals_mean D (LS.trainInd n test) hN j
          have hsq := MPPar.colVals_sq D (LS.trainInd n test) hN j
          rw [hT] at hlen hmean
          simp only [hT] at hsq
          refine std_le (MPPar.colVals D (LS.trainInd n test) j) (by rw [hlen]; exact Finset.card_pos.2 (hD.nonempty j)) ?_
            ((abs_nonneg _).trans (hD.le j j)) ?_
          · intro x hx
            rw [MPPar.colVals] at hx
            obtain ⟨i, -, rfl⟩ := List.mem_map.1 hx
            exact hD.le i j
          · rw [hsq, hmean, hlen]
            exact Real.sq_sqrt (MPPar.variance_nonneg _ _)
        by_contra h
        push Not at h
        have := hD.ratio j
        nlinarith
      have h3 : 1 * u ≤ n * κ * u := mul_le_mul_of_nonneg_right (by nlinarith) hu.le
      linarith
    refine ⟨fun i j => if i = j then Spec.ownValue metric else if i < j then E i j else E j i,
      MPPar.gaussi_eq MPPar.scipy D metric hm mn test hD.nonempty, ?_, ?_⟩
    · rw [gaussi_square L _ metric hm.symm test]
      unfold gaussiDense
      simp only
      rw [fillUpper_eq _ _ (fun i j => gaussEntry_float L metric _ _ _ _ _)]
      congr 3
      funext i j
      unfold mirrored
      by_cases hij : i = j
      · rw [if_pos hij, if_pos hij]
        unfold selfValue Spec.ownValue
        split <;> rfl
      · rw [if_neg hij, if_neg hij]
        simp only [hpar, hE]
        split <;> rfl
    · intro i j
      simp only
      unfold MPPar.gaussM
      by_cases hij : i = j
      · rw [if_pos hij, if_pos hij, sub_self, abs_zero]
        have := hκ0 i
        positivity
      · rw [if_neg hij, if_neg hij]
        refine le_trans ?_ (hb2 i)
        rcases lt_or_gt_of_ne hij with h | h
        · rw [if_pos h, min_eq_left h.le, max_eq_right h.le]
          exact hEe i j
        · rw [if_neg h.not_gt, min_eq_right h.le, max_eq_left h.le, MPPar.mp_comm]
          exact hEe j i
  · obtain ⟨M', hM', hu'⟩ := C187_regular double L hL.ok D (e := 400) (by norm_num [double]) (by norm_num [double])
      (hn.trans (by norm_num [double])) (fun i j => by
        have := (hD.le i j).trans hD.B_le
        exact_mod_cast this) hD.float metric hm.symm test (fun j => by
        obtain ⟨i, hi⟩ := hD.nonempty j
        rw [Finset.mem_erase, ← hT, List.mem_toFinset] at hi
        exact ⟨i, hi.2, hi.1⟩)
    choose y hy y0 y1 using hu'
    refine ⟨y, MPPar.gaussi_eq MPPar.scipy D metric hm mn test hD.nonempty, ?_, ?_⟩
    · rw [hM']
      congr 3
      funext i j
      exact hy i j
    · intro i j
      obtain ⟨h0, h1⟩ := hunit i j
      have h2 := y0 i j
      have h3 := y1 i j
      push Not at hsmall
      rw [abs_le]
      constructor <;> linarith


/-- **C222** (order). Two pairs whose exact secondary distances (similarities) differ by more than twice the bound are ranked as
by the exact values. -/
theorem C222_order (L : ProbLib ℝ) {δ : ℝ} (hL : L.Near δ) {n : ℕ} (hn : n ≤ 2 ^ 40) (D : Fin n → Fin n → ℝ)
    (test : Option (List ℤ)) {B κ : ℝ} (hD : Spread D test B κ) (metric : String) (hm : Spec.IsMetric metric) (mn : ℤ) :
    ∃ M M' : Fin n → Fin n → ℝ,
      MPPar.gaussi MPPar.scipy (.mat false n n D) metric 0 mn test none = .ok ⟨n, n, fun i j => .fin (M i j)⟩ ∧
      (double.rounding ℝ).gaussi L (fun i j => .fin (D i j)) metric test = .ok ⟨n, fun i j => .fin (M' i j)⟩ ∧
      ∀ i j a b, M i j + 2 * (2 * δ + 54 * n * κ * 2 ^ (-53 : ℤ)) < M a b → M' i j < M' a b := by
  obtain ⟨M, M', h1, h2, he⟩ := C222 L hL hn D test hD metric hm mn
  refine ⟨M, M', h1, h2, ?_⟩
  intro i j a b h
  have e1 := (abs_le.1 (he i j)).2
  have e2 := (abs_le.1 (he a b)).1
  linarith

/-- **C222** (units). Distances in another unit or with another zero, with any factor and constant such that the converted
distances are floats, yield the same secondary distances up to the sum of the two bounds. -/
theorem C222_affine (L : ProbLib ℝ) {δ : ℝ} (hL : L.Near δ) {n : ℕ} (hn : n ≤ 2 ^ 40) (D D' : Fin n → Fin n → ℝ)
    (test : Option (List ℤ)) {B B' κ κ' a b : ℝ} (ha : 0 < a) (h : ∀ i j, i ≠ j → D' i j = a * D i j + b)
    (hD : Spread D test B κ) (hD' : Spread D' test B' κ') (metric : String) (hm : Spec.IsMetric metric) :
    ∃ M M' : Fin n → Fin n → ℝ,
      (double.rounding ℝ).gaussi L (fun i j => .fin (D i j)) metric test = .ok ⟨n, fun i j => .fin (M i j)⟩ ∧
      (double.rounding ℝ).gaussi L (fun i j => .fin (D' i j)) metric test = .ok ⟨n, fun i j => .fin (M' i j)⟩ ∧
      ∀ i j, |M' i j - M i j| ≤ 4 * δ + 54 * n * (κ + κ') * 2 ^ (-53 : ℤ) := by
  obtain ⟨E, M, h1, h2, he⟩ := C222 L hL hn D test hD metric hm 0
  obtain ⟨E', M', h1', h2', he'⟩ := C222 L hL hn D' test hD' metric hm 0
  refine ⟨M, M', h2, h2', ?_⟩
  have hE : E' = E := by
    have := MPPar.C89_affine MPPar.scipy D D' a b ha h metric hm 0 test
      (fun j => ((zpow_pos two_pos _).trans_le (hD.std j)).ne')
    rw [h1, h1'] at this
    have := Except.ok.inj this
    simp only [Sigma.mk.injEq, heq_eq_eq, true_and] at this
    funext i j
    exact XR.fin.inj (congrFun (congrFun this i) j)
  intro i j
  have := abs_sub_le (M' i j) (E i j) (M i j)
  have e1 := he i j
  have e2 := he' i j
  rw [hE] at e2
  rw [abs_sub_comm] at e1
  linarith

/-! ### The hypotheses can be met -/

/-- Correctly rounded functions, sums from left to right. -/
noncomputable def ProbLib.rounded : ProbLib ℝ where
  sqrt a := (double.rounding ℝ).up (XR.sqrt a)
  sum l := l.foldl (double.rounding ℝ).add (.fin 0)
  cdf x m s := match x with
    | .fin x => (double.rounding ℝ).up (MPPar.normCdf MPPar.scipy x m s)
    | _ => .nan
  sf x m s := match x with
    | .fin x => (double.rounding ℝ).up (MPPar.normSf MPPar.scipy x m s)
    | _ => .nan
  gammainc a x := (double.rounding ℝ).up (MPPar.scipy.gammainc a x)

theorem round_unit_interval {x : ℝ} (h0 : 0 ≤ x) (h1 : x ≤ 1) : ∃ y, double.round x = .fin y ∧ 0 ≤ y ∧ y ≤ 1 ∧ |y - x| ≤ u := by
  have f0 := Ieee.round_grid (K := ℝ) double (z := 0) (t := 0) (by norm_num) (by norm_num [double]) (by norm_num [double])
  have f1 := Ieee.round_grid (K := ℝ) double (z := 1) (t := 0) (by norm_num [double]) (by norm_num [double]) (by norm_num [double])
  push_cast at f0 f1
  rw [zpow_zero, mul_one] at f0 f1
  obtain ⟨y, hy, y0, y1⟩ := Ieee.round_sandwich double f0 f1 h0 h1
  refine ⟨y, hy, y0, y1, ?_⟩
  obtain ⟨z, hz, he⟩ := round_unit (x := x) (by rw [abs_le]; constructor <;> linarith)
  rw [hy] at hz
  obtain rfl := XR.fin.inj hz
  exact he

theorem gammainc_unit (a x : XR ℝ) : NanOrUnit (MPPar.scipy.gammainc a x) := by
  cases a <;> cases x <;> first | exact Or.inl rfl | skip
  · next a x =>
    show NanOrUnit (if 0 < a ∧ 0 ≤ x then _ else if a = 0 ∧ 0 < x then _ else _)
    split
    · exact Or.inr ⟨_, rfl, ProbabilityTheory.cdf_nonneg _ _, ProbabilityTheory.cdf_le_one _ _⟩
    · split
      · exact Or.inr ⟨1, rfl, zero_le_one, le_rfl⟩
      · exact Or.inl rfl
  · next a =>
    show NanOrUnit (if 0 ≤ a then _ else _)
    split
    · exact Or.inr ⟨1, rfl, zero_le_one, le_rfl⟩
    · exact Or.inl rfl
  · next x =>
    show NanOrUnit (if 0 ≤ x then _ else _)
    split
    · exact Or.inr ⟨0, rfl, le_rfl, zero_le_one⟩
    · exact Or.inl rfl

theorem up_nanOrUnit {a : XR ℝ} (h : NanOrUnit a) : NanOrUnit ((double.rounding ℝ).up a) := by
  rcases h with rfl | ⟨x, rfl, h0, h1⟩
  · exact Or.inl rfl
  · obtain ⟨y, hy, y0, y1, -⟩ := round_unit_interval h0 h1
    exact Or.inr ⟨y, hy, y0, y1⟩

theorem normCdf_unit (x : ℝ) (m s : XR ℝ) : NanOrUnit (MPPar.normCdf MPPar.scipy x m s) := by
  cases m <;> cases s <;> first | exact Or.inl rfl | skip
  next m s =>
  show NanOrUnit (if 0 < s then _ else _)
  split
  · exact Or.inr ⟨_, rfl, MPPar.scipy.phi_nonneg _, MPPar.scipy.phi_le_one _⟩
  · exact Or.inl rfl

theorem normSf_unit (x : ℝ) (m s : XR ℝ) : NanOrUnit (MPPar.normSf MPPar.scipy x m s) := by
  unfold MPPar.normSf
  rcases normCdf_unit x m s with h | ⟨y, h, h0, h1⟩
  · rw [h]
    exact Or.inl rfl
  · rw [h]
    exact Or.inr ⟨1 + -y, rfl, by linarith, by linarith⟩

theorem round_ne_nan (x : ℝ) : double.round x ≠ .nan := (double.rounding ℝ).ne_nan x

theorem ProbLib.rounded_near : ProbLib.rounded.Near u where
  ok := {
    sqrt_fin := by
      intro x hf hx
      have f0 := Ieee.round_grid (K := ℝ) double (z := 0) (t := 0) (by norm_num) (by norm_num [double]) (by norm_num [double])
      have f1 := Ieee.round_grid (K := ℝ) double (z := 1) (t := 0) (by norm_num [double]) (by norm_num [double])
        (by norm_num [double])
      push_cast at f0 f1
      rw [zpow_zero, mul_one] at f0 f1
      have hs : XR.sqrt (.fin x) = .fin √x := by simp [XR.sqrt, hx.not_gt]
      have key : ∃ b, double.round b = .fin b ∧ √x ≤ b := by
        rcases le_total x 1 with h | h
        · exact ⟨1, f1, Real.sqrt_le_one.2 h⟩
        · refine ⟨x, hf, ?_⟩
          rw [Real.sqrt_le_left hx]
          nlinarith
      obtain ⟨b, hb, hxb⟩ := key
      obtain ⟨y, hy, y0, -⟩ := Ieee.round_sandwich double f0 hb (Real.sqrt_nonneg x) hxb
      refine ⟨y, ?_, y0⟩
      show (double.rounding ℝ).up (XR.sqrt (.fin x)) = _
      rw [hs]
      exact hy
    sum_some_order := fun l hl => sums_foldl _ l hl
    cdf_unit := by
      intro x m s
      cases x <;> first | exact Or.inl rfl | exact up_nanOrUnit (normCdf_unit _ m s)
    sf_unit := by
      intro x m s
      cases x <;> first | exact Or.inl rfl | exact up_nanOrUnit (normSf_unit _ m s)
    cdf_fin := by
      intro x m s hs
      show (double.rounding ℝ).up (MPPar.normCdf MPPar.scipy x (.fin m) (.fin s)) ≠ _
      rw [MPPar.normCdf_fin _ _ _ _ hs]
      exact round_ne_nan _
    sf_fin := by
      intro x m s hs
      show (double.rounding ℝ).up (MPPar.normSf MPPar.scipy x (.fin m) (.fin s)) ≠ _
      unfold MPPar.normSf
      rw [MPPar.normCdf_fin _ _ _ _ hs]
      exact round_ne_nan _
    gammainc_unit := fun a x => up_nanOrUnit (gammainc_unit a x) }
  sqrt_near x h0 h1 := by
    have hx : 0 < x := (zpow_pos two_pos _).trans_le h0
    obtain ⟨z, hz, -, he⟩ := within_round (a := -450) (b := 450) (by norm_num) (by norm_num) (x := √x)
      (Or.inr (by
        rw [abs_of_nonneg (Real.sqrt_nonneg x)]
        exact ⟨Real.le_sqrt_of_sq_le (by rw [← zpow_natCast, ← zpow_mul]; exact h0),
          Real.sqrt_le_iff.2 ⟨(zpow_pos two_pos _).le, by rw [← zpow_natCast, ← zpow_mul]; exact h1⟩⟩))
    rw [abs_of_nonneg (Real.sqrt_nonneg x)] at he
    refine ⟨z, ?_, he.trans (mul_le_mul_of_nonneg_right (by linarith [u_pos]) (Real.sqrt_nonneg x))⟩
    show (double.rounding ℝ).up (XR.sqrt (.fin x)) = _
    have : XR.sqrt (.fin x) = .fin √x := by simp [XR.sqrt, hx.not_gt]
    rw [this]
    exact hz
  cdf_near x m s _ _ hs _ := by
    have hs0 : 0 < s := (zpow_pos two_pos _).trans_le hs
    obtain ⟨y, hy, -, -, he⟩ := round_unit_interval (ProbabilityTheory.cdf_nonneg (gaussianReal 0 1) ((x - m) / s))
      (ProbabilityTheory.cdf_le_one _ _)
    refine ⟨y, ?_, ?_⟩
    · show (double.rounding ℝ).up (MPPar.normCdf MPPar.scipy x (.fin m) (.fin s)) = _
      rw [MPPar.normCdf_fin _ _ _ _ hs0]
      exact hy
    · rw [Prob.cdf_gaussian m s hs0]
      exact he
  sf_near x m s _ _ hs _ := by
    have hs0 : 0 < s := (zpow_pos two_pos _).trans_le hs
    obtain ⟨y, hy, -, -, he⟩ := round_unit_interval (x := 1 + -ProbabilityTheory.cdf (gaussianReal 0 1) ((x - m) / s))
      (by linarith [ProbabilityTheory.cdf_le_one (gaussianReal 0 1) ((x - m) / s)])
      (by linarith [ProbabilityTheory.cdf_nonneg (gaussianReal 0 1) ((x - m) / s)])
    refine ⟨y, ?_, ?_⟩
    · show (double.rounding ℝ).up (MPPar.normSf MPPar.scipy x (.fin m) (.fin s)) = _
      unfold MPPar.normSf
      rw [MPPar.normCdf_fin _ _ _ _ hs0]
      exact hy
    · rw [Prob.cdf_gaussian m s hs0, sub_eq_add_neg 1]
      exact he

theorem line3_std (c : ℝ) (hc : 1 ≤ c) (j : Fin 3) :
    c / 2 ≤ Spec.stdDev ((Spec.training 3 none).erase j) (fun i => c * LS.line3 i j) := by
  have hT : Spec.training 3 none = Finset.univ := by decide
  apply Real.le_sqrt_of_sq_le
  unfold Spec.variance Spec.meanOver
  rw [hT]
  have key : ∀ a b j : Fin 3, (Finset.univ : Finset (Fin 3)).erase j = {a, b} → a ≠ b →
      1 ≤ |LS.line3 a j - LS.line3 b j| →
      (c / 2) ^ 2 ≤ (∑ i ∈ Finset.univ.erase j, (c * LS.line3 i j -
        (∑ i ∈ Finset.univ.erase j, c * LS.line3 i j) / (Finset.univ.erase j).card) ^ 2) / (Finset.univ.erase j).card := by
    intro a b j e hab h
    rw [e, Finset.sum_pair hab, Finset.sum_pair hab, Finset.card_pair hab]
    have h2 : 1 ≤ (LS.line3 a j - LS.line3 b j) ^ 2 := by
      rw [← sq_abs]
      nlinarith
    have e3 : ((c * LS.line3 a j - (c * LS.line3 a j + c * LS.line3 b j) / ((2 : ℕ) : ℝ)) ^ 2 +
        (c * LS.line3 b j - (c * LS.line3 a j + c * LS.line3 b j) / ((2 : ℕ) : ℝ)) ^ 2) / ((2 : ℕ) : ℝ) =
        (c / 2) ^ 2 * (LS.line3 a j - LS.line3 b j) ^ 2 := by
      push_cast
      ring
    rw [e3]
    exact le_mul_of_one_le_right (sq_nonneg _) h2
  fin_cases j
  · refine key 1 2 0 (by decide) (by decide) ?_
    rw [show LS.line3 1 0 = 1 from rfl, show LS.line3 2 0 = 3 from rfl]
    norm_num
  · refine key 0 2 1 (by decide) (by decide) ?_
    rw [show LS.line3 0 1 = 1 from rfl, show LS.line3 2 1 = 2 from rfl]
    norm_num
  · refine key 0 1 2 (by decide) (by decide) ?_
    rw [show LS.line3 0 2 = 3 from rfl, show LS.line3 1 2 = 2 from rfl]
    norm_num

theorem line3_spread (c : ℤ) (h1 : 1 ≤ c) (h2 : c ≤ 2) :
    Spread (fun i j => (c : ℝ) * LS.line3 i j) none (c * 3) 6 where
  float i j := line3_float i j c (by rw [abs_le]; constructor <;> omega)
  le i j := by
    have h1' : (1 : ℝ) ≤ c := by exact_mod_cast h1
    rw [abs_mul, abs_of_pos (by linarith)]
    refine mul_le_mul_of_nonneg_left ?_ (by linarith)
    fin_cases i <;> fin_cases j <;> norm_num [LS.line3]
  B_le := by
    have h2' : (c : ℝ) ≤ 2 := by exact_mod_cast h2
    have : (2 : ℝ) ^ (3 : ℤ) ≤ 2 ^ (400 : ℤ) := two_zpow_le (by norm_num)
    refine le_trans ?_ this
    norm_num
    linarith
  std j := by
    have h1' : (1 : ℝ) ≤ c := by exact_mod_cast h1
    refine le_trans ?_ (line3_std c h1' j)
    have : (2 : ℝ) ^ (-400 : ℤ) ≤ 2 ^ (-1 : ℤ) := two_zpow_le (by norm_num)
    refine this.trans ?_
    norm_num
    linarith
  ratio j := by
    have h1' : (1 : ℝ) ≤ c := by exact_mod_cast h1
    have := line3_std c h1' j
    linarith

/-- The points 0, 1 and 3 on a line, and correctly rounded functions: the error is at most `974 · 2^-53`. -/
example (metric : String) (hm : Spec.IsMetric metric) (mn : ℤ) := C222_order ProbLib.rounded ProbLib.rounded_near (by norm_num)
  (fun i j => ((1 : ℤ) : ℝ) * LS.line3 i j) none (line3_spread 1 (by norm_num) (by norm_num)) metric hm mn

example (metric : String) (hm : Spec.IsMetric metric) := C222_affine ProbLib.rounded ProbLib.rounded_near (by norm_num)
  (fun i j => ((1 : ℤ) : ℝ) * LS.line3 i j) (fun i j => ((2 : ℤ) : ℝ) * LS.line3 i j) none (a := 2) (b := 0) two_pos
  (fun i j _ => by push_cast; ring) (line3_spread 1 (by norm_num) (by norm_num)) (line3_spread 2 (by norm_num) (by norm_num))
  metric hm

end Rounding
end HubToolbox
