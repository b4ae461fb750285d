import Verif.Rounding.IntDimModel
import Verif.Rounding.HubHood
import Verif.Rounding.NicdmError
import Verif.Rounding.DisSimProps
import Verif.IntDim.Props

/-!
# C284: `intrinsic_dimension` in double precision
-/

set_option autoImplicit false

namespace HubToolbox.Rounding

open HubToolbox Ieee

/-- What is assumed of the functions of numpy in float64: sums and inner products add in some order, logarithms are right up to `2^-45` for arguments which
are neither tiny nor huge. -/
structure IdLib.Near (L : IdLib) : Prop where
  sum_some_order : ∀ l, (∀ a ∈ l, (double.rounding ℝ).Float a) → (double.rounding ℝ).Sums l (L.sum l)
  dot_some_order : ∀ x y, x.length = y.length → (double.rounding ℝ).Sums (List.zipWith (double.rounding ℝ).mul x y) (L.dot x y)
  log_near : ∀ x : ℝ, 2 ^ (-200 : ℤ) ≤ x → x ≤ 2 ^ (200 : ℤ) →
    ∃ y, L.log (.fin x) = .fin y ∧ double.round y = .fin y ∧ |y - Real.log x| ≤ 256 * u

/-- Rounding of numbers which are not too large. -/
theorem abs_round {x : ℝ} (hb : |x| ≤ 2 ^ 60) : ∃ y, double.round x = .fin y ∧ double.round y = .fin y ∧ |y - x| ≤ u * |x| + 256 * u := by
  have hu := u_pos
  by_cases h : x = 0 ∨ 1 / 2 ^ 100 ≤ |x|
  · obtain ⟨y, h1, h2, h3⟩ := rel_moderate h hb
    exact ⟨y, h1, h2, h3.trans (by linarith)⟩
  · have h' : |x| < 1 / 2 ^ 100 := not_le.1 fun hc => h (Or.inr hc)
    have h1 : |x| ≤ 1 := h'.le.trans (by norm_num)
    obtain ⟨y, hy, -⟩ := Ieee.round_abs_le (K := ℝ) double h1 (double.rounding ℝ).one
    refine ⟨y, hy, (double.rounding ℝ).idem _ _ hy, ?_⟩
    have := round_abs_error (h1.trans_lt (by norm_num)) hy
    have : 0 ≤ u * |x| := by positivity
    linarith

section
variable {a t : ℕ → ℝ} {k : ℕ} (hk : k ≤ 2 ^ 20) (hf : ∀ c, c < k → double.round (a c) = .fin (a c))
  (ha : ∀ c, c < k → |a c - t c| ≤ 384 * u) (ht : ∀ c, c < k → 0 ≤ t c ∧ t c ≤ 20)
include hk hf ha ht

theorem square_u {c : ℕ} (hc : c ≤ k) : 404 * (c : ℝ) ^ 2 * u ≤ 1 := by
  have h1 : (c : ℝ) ≤ 2 ^ 20 := by exact_mod_cast hc.trans hk
  have h2 : (c : ℝ) ^ 2 ≤ (2 ^ 20) ^ 2 := pow_le_pow_left₀ (Nat.cast_nonneg c) h1 2
  have hu := u_pos
  calc 404 * (c : ℝ) ^ 2 * u ≤ 404 * (2 ^ 20) ^ 2 * (1 / 2 ^ 50) :=
        mul_le_mul (mul_le_mul_of_nonneg_left h2 (by norm_num)) u_le_50 hu.le (by positivity)
    _ ≤ 1 := by norm_num

theorem sum_t (c : ℕ) (hc : c ≤ k) : 0 ≤ ∑ j ∈ Finset.range c, t j ∧ ∑ j ∈ Finset.range c, t j ≤ 20 * c := by
  constructor
  · exact Finset.sum_nonneg fun j hj => (ht j ((Finset.mem_range.1 hj).trans_le hc)).1
  · have := Finset.sum_le_card_nsmul (Finset.range c) t 20 fun j hj => (ht j ((Finset.mem_range.1 hj).trans_le hc)).2
    rw [Finset.card_range, nsmul_eq_mul] at this
    linarith

theorem cumsum_error (c : ℕ) (hc : c < k) : ∃ S, (double.rounding ℝ).idCumsum (fun c => .fin (a c)) c = .fin S ∧ double.round S = .fin S ∧
    |S - ∑ j ∈ Finset.range (c + 1), t j| ≤ 404 * ((c + 1 : ℕ) : ℝ) ^ 2 * u := by
  have hu := u_pos
  induction c with
  | zero =>
    refine ⟨a 0, rfl, hf 0 hc, ?_⟩
    rw [Finset.sum_range_one]
    refine (ha 0 hc).trans ?_
    norm_num
    linarith
  | succ c ih =>
    obtain ⟨S, h1, h2, h3⟩ := ih (by omega)
    obtain ⟨s0, s1⟩ := sum_t hk hf ha ht (c + 1) hc.le
    have hE := square_u hk hf ha ht (c := c + 1) hc.le
    obtain ⟨t0, t1⟩ := ht (c + 1) hc
    have hac := ha (c + 1) hc
    have hs : |S + a (c + 1)| ≤ 20 * ((c + 1 : ℕ) : ℝ) + 22 := by
      rw [abs_le] at h3 hac ⊢
      have h50 := u_le_50
      norm_num at h50
      constructor <;> linarith
    have hcr : ((c + 1 : ℕ) : ℝ) ≤ 2 ^ 20 := by exact_mod_cast hc.le.trans hk
    obtain ⟨z, e1, e2, e3⟩ := Ieee.add_float (K := ℝ) double h2 (hf (c + 1) hc) (small_emax (hs.trans (by norm_num at hcr ⊢; linarith)))
    refine ⟨z, ?_, e2, ?_⟩
    · show (double.rounding ℝ).add ((double.rounding ℝ).idCumsum (fun c => .fin (a c)) c) (.fin (a (c + 1))) = _
      rw [h1, e1]
    · rw [Finset.sum_range_succ]
      have e4 : |z - (S + a (c + 1))| ≤ u * (20 * ((c + 1 : ℕ) : ℝ) + 22) := e3.trans (mul_le_mul_of_nonneg_left hs hu.le)
      have e5 : (404 * ((c + 1 + 1 : ℕ) : ℝ) ^ 2 * u) = 404 * ((c + 1 : ℕ) : ℝ) ^ 2 * u + u * (808 * ((c + 1 : ℕ) : ℝ) + 404) := by
        push_cast
        ring
      rw [e5]
      rw [abs_le] at h3 hac e4 ⊢
      have hcp : (0 : ℝ) ≤ u * ((c + 1 : ℕ) : ℝ) := by positivity
      have hc1 : (1 : ℝ) ≤ ((c + 1 : ℕ) : ℝ) := by exact_mod_cast Nat.succ_le_succ (Nat.zero_le c)
      have hcp1 : u ≤ u * ((c + 1 : ℕ) : ℝ) := le_mul_of_one_le_right hu.le hc1
      constructor <;> linarith

/-- Error of the denominator. -/
theorem den_error (h1 : 1 ≤ k) : ∃ d, (double.rounding ℝ).sub ((double.rounding ℝ).idCumsum (fun c => .fin (a c)) (k - 1))
      ((double.rounding ℝ).mul (.fin (a (k - 1))) ((double.rounding ℝ).ofNat k)) = .fin d ∧
    |d - ((∑ j ∈ Finset.range k, t j) - t (k - 1) * k)| ≤ 1200 * (k : ℝ) ^ 2 * u := by
  have hu := u_pos
  have h50 := u_le_50
  norm_num at h50
  obtain ⟨S, e1, e2, e3⟩ := cumsum_error hk hf ha ht (k - 1) (by omega)
  rw [Nat.sub_add_cancel h1] at e3
  have hE := square_u hk hf ha ht (c := k) le_rfl
  obtain ⟨s0, s1⟩ := sum_t hk hf ha ht k le_rfl
  obtain ⟨t0, t1⟩ := ht (k - 1) (by omega)
  have hac := ha (k - 1) (by omega)
  have hk1 : (1 : ℝ) ≤ k := by exact_mod_cast h1
  have hk2 : (k : ℝ) ≤ 1048576 := by exact_mod_cast hk
  have hk0 : (0 : ℝ) < k := by linarith
  have hkk : (k : ℝ) ≤ (k : ℝ) ^ 2 := by nlinarith
  have hmk : |a (k - 1) * k - t (k - 1) * k| ≤ 384 * u * k := by
    rw [← sub_mul, abs_mul, abs_of_pos hk0]
    exact mul_le_mul_of_nonneg_right hac hk0.le
  have hm : |a (k - 1) * k| ≤ 21 * k := by
    have h2 : t (k - 1) * k ≤ 20 * k := mul_le_mul_of_nonneg_right t1 hk0.le
    have h3 : 0 ≤ t (k - 1) * k := mul_nonneg t0 hk0.le
    have h4 : 384 * u * k ≤ k := mul_le_of_le_one_left hk0.le (by linarith)
    rw [abs_le] at hmk ⊢
    constructor <;> linarith
  obtain ⟨p, p1, p2, p3⟩ := abs_round (hm.trans (by norm_num; linarith))
  have hp : |p - a (k - 1) * k| ≤ 277 * u * k := by
    refine p3.trans ?_
    have h2 : u * |a (k - 1) * k| ≤ u * (21 * k) := mul_le_mul_of_nonneg_left hm hu.le
    have h3 : u ≤ u * k := le_mul_of_one_le_right hu.le hk1
    linarith
  have huk : u * k ≤ 1 / 1000000 * k := mul_le_mul_of_nonneg_right (by linarith) hk0.le
  have hpS : |S + -p| ≤ 45 * k := by
    have h2 : t (k - 1) * k ≤ 20 * k := mul_le_mul_of_nonneg_right t1 hk0.le
    have h3 : 0 ≤ t (k - 1) * k := mul_nonneg t0 hk0.le
    rw [abs_le] at hmk hp e3 ⊢
    constructor <;> linarith
  obtain ⟨d, d1, -, d3⟩ := Ieee.add_float (K := ℝ) double e2 (Ieee.neg_float (K := ℝ) double p2)
    (small_emax (hpS.trans (by norm_num; linarith)))
  refine ⟨d, ?_, ?_⟩
  · rw [e1, ofNat_exact (hk.trans (by norm_num))]
    have : (double.rounding ℝ).mul (.fin (a (k - 1))) (.fin (k : ℝ)) = .fin p := p1
    rw [this]
    exact d1
  · have d4 : |d - (S + -p)| ≤ u * (45 * k) := d3.trans (mul_le_mul_of_nonneg_left hpS hu.le)
    have hq : u * k ≤ u * (k : ℝ) ^ 2 := mul_le_mul_of_nonneg_left hkk hu.le
    rw [abs_le] at hmk hp e3 d4 ⊢
    constructor <;> linarith

end

/-- Error of a quotient with a perturbed denominator. -/
theorem quot_pert {k s d η : ℝ} (hk : 0 ≤ k) (hs : 0 < s) (hη : η ≤ 1 / 4) (hd : |d - -s| ≤ η * s) : d < 0 ∧ |(-k) / d - k / s| ≤ 4 / 3 * η * (k / s) := by
  have h1 := abs_le.1 hd
  have hηs : η * s ≤ 1 / 4 * s := mul_le_mul_of_nonneg_right hη hs.le
  have hd0 : d < 0 := by linarith
  refine ⟨hd0, ?_⟩
  have hd' : 3 / 4 * s ≤ -d := by linarith
  have e : (-k) / d - k / s = (k / s) * ((d - -s) / (-d)) := by
    have h2 : d ≠ 0 := hd0.ne
    have h3 : s ≠ 0 := hs.ne'
    field_simp
    ring
  have hks : 0 ≤ k / s := div_nonneg hk hs.le
  rw [e, abs_mul, abs_of_nonneg hks, abs_div, abs_of_pos (show 0 < -d by linarith), mul_comm]
  refine mul_le_mul_of_nonneg_right ?_ hks
  rw [div_le_iff₀ (by linarith)]
  refine hd.trans ?_
  have hη0 : 0 ≤ η := by
    have := (abs_nonneg _).trans hd
    exact nonneg_of_mul_nonneg_left this hs
  have := mul_le_mul_of_nonneg_left hd' hη0
  linarith

end HubToolbox.Rounding
