import Verif.Rounding.CosineError
import Verif.Hubness.Props
import Verif.Hubness.Examples

/-!
# C213: hubness in floating point

`scipy.stats.skew` on `k`-occurrences: for square matrices the mean is the integer `k`, so that all powers and their sums are
exact, and only five operations are rounded.
-/

set_option autoImplicit false

namespace HubToolbox.Rounding

open HubToolbox Ieee

/-- Functions of numpy as computed: sums and the power `x ** 1.5`. -/
structure SkewLib (K : Type) where
  sum : List (XR K) → XR K
  pow15 : XR K → XR K

section
variable {K : Type} [Field K] [LinearOrder K]

/-- `np.mean` of floats, or of integers converted to float64. -/
def mean (R : Rounding K) (L : SkewLib K) (l : List (XR K)) : XR K := R.div (L.sum l) (R.ofNat l.length)

/-- `stats.skew(N_k)` (`/repo/hub_toolbox/hubness.py` lines 222, 297; `scipy.stats.moment` computes the third power as square
times value; 0 for constant data as in scipy before 1.9). -/
def skew (R : Rounding K) (L : SkewLib K) (x : List ℕ) : XR K :=
  let a := x.map (fun v => R.ofNat v)
  let zeroMean := a.map (fun v => R.sub v (R.mean L a))
  let m2 := R.mean L (zeroMean.map (fun v => R.mul v v))
  let m3 := R.mean L (zeroMean.map (fun v => R.mul (R.mul v v) v))
  if m2 = .fin 0 then .fin 0 else R.div m3 (L.pow15 m2)

end

/-- What is assumed in float64: sums add in some order, powers are right up to two units of roundoff. -/
structure SkewLib.Near (L : SkewLib ℝ) : Prop where
  sum_some_order : ∀ l, (∀ a ∈ l, (double.rounding ℝ).Float a) → (double.rounding ℝ).Sums l (L.sum l)
  pow_near : ∀ x : ℝ, 2 ^ (-60 : ℤ) ≤ x → x ≤ 2 ^ (60 : ℤ) →
    ∃ z, L.pow15 (.fin x) = .fin z ∧ |z - x ^ (1.5 : ℝ)| ≤ 2 * u * x ^ (1.5 : ℝ)

theorem round_int {z : ℤ} (h : |z| ≤ 2 ^ 53) : double.round (z : ℝ) = .fin (z : ℝ) := by
  have := round_grid (K := ℝ) double (z := z) (t := 0) h (by decide) (by decide)
  simpa using this

/-- Means of integers need one rounding. -/
theorem mean_int (L : SkewLib ℝ) (hL : L.Near) (l : List ℤ) (hs : (l.map (|·|)).sum ≤ 2 ^ 53) (h0 : 0 < l.length)
    (hn : l.length ≤ 2 ^ 53) :
    (double.rounding ℝ).mean L (l.map (fun z : ℤ => .fin (z : ℝ))) = double.round ((l.sum : ℝ) / (l.length : ℝ)) := by
  have hmem : ∀ z ∈ l, |z| ≤ 2 ^ 53 := by
    intro z hz
    refine le_trans ?_ hs
    exact List.single_le_sum (by intro x hx; obtain ⟨y, _, rfl⟩ := List.mem_map.1 hx; exact abs_nonneg y) _
      (List.mem_map.2 ⟨z, hz, rfl⟩)
  have h := hL.sum_some_order (l.map (fun z : ℤ => .fin (z : ℝ))) (by
    intro a ha
    obtain ⟨z, hz, rfl⟩ := List.mem_map.1 ha
    exact round_int (hmem z hz))
  have e : l.map (fun z : ℤ => (.fin (z : ℝ) : XR ℝ)) = l.map (fun z : ℤ => .fin ((z : ℝ) * 2 ^ (0 : ℤ))) := by simp
  rw [e] at h
  have hsum := sum_grid (K := ℝ) double h hs (by decide) (by decide)
  rw [← e] at hsum
  unfold mean
  rw [hsum, List.length_map]
  have hN : (double.rounding ℝ).ofNat l.length = .fin (l.length : ℝ) := by
    have := round_int (z := (l.length : ℤ)) (by rw [abs_of_nonneg (by positivity)]; exact_mod_cast hn)
    exact_mod_cast this
  rw [hN]
  have hne : (l.length : ℝ) ≠ 0 := by exact_mod_cast h0.ne'
  unfold div
  simp only [XR.div, hne, if_false, zpow_zero, mul_one]
  rfl

/-- Sizes for which nothing but means, power and quotient is rounded: `k` is the mean. -/
structure SkewExact (x : List ℕ) (k : ℕ) : Prop where
  pos : 0 < x.length
  sum : x.sum = x.length * k
  small : x.length * k ≤ 2 ^ 53
  length : x.length ≤ 2 ^ 53
  cubes : (x.map (fun v : ℕ => |(v : ℤ) - k| ^ 3)).sum ≤ 2 ^ 53

/-- Sum of the `p`-th powers of deviations. -/
def devSum (x : List ℕ) (k p : ℕ) : ℤ := (x.map (fun v : ℕ => ((v : ℤ) - k) ^ p)).sum

theorem mem_le_sum {x : List ℕ} {v : ℕ} (h : v ∈ x) : v ≤ x.sum := List.single_le_sum (fun _ _ => Nat.zero_le _) _ h

section
variable {x : List ℕ} {k : ℕ} (hx : SkewExact x k)
include hx

theorem SkewExact.value {v : ℕ} (h : v ∈ x) : v ≤ 2 ^ 53 := (mem_le_sum h).trans (hx.sum ▸ hx.small)

theorem SkewExact.mean_le : k ≤ 2 ^ 53 := (Nat.le_mul_of_pos_left k hx.pos).trans hx.small

theorem SkewExact.cube {v : ℕ} (h : v ∈ x) : |(v : ℤ) - k| ^ 3 ≤ 2 ^ 53 := by
  refine le_trans ?_ hx.cubes
  exact List.single_le_sum (by intro y hy; obtain ⟨z, _, rfl⟩ := List.mem_map.1 hy; positivity) _ (List.mem_map.2 ⟨v, h, rfl⟩)

theorem SkewExact.power {v : ℕ} (h : v ∈ x) {p : ℕ} (h1 : 1 ≤ p) (h3 : p ≤ 3) : |(v : ℤ) - k| ^ p ≤ |(v : ℤ) - k| ^ 3 := by
  rcases eq_or_ne |(v : ℤ) - k| 0 with e | e
  · rw [e, zero_pow (by omega)]; positivity
  · exact pow_le_pow_right₀ (by have := abs_nonneg ((v : ℤ) - k); omega) h3

theorem SkewExact.powers {p : ℕ} (h1 : 1 ≤ p) (h3 : p ≤ 3) :
    ((x.map (fun v : ℕ => ((v : ℤ) - k) ^ p)).map (|·|)).sum ≤ 2 ^ 53 := by
  refine le_trans ?_ hx.cubes
  rw [List.map_map]
  apply List.sum_le_sum
  intro v hv
  rw [Function.comp_apply, abs_pow]
  exact hx.power hv h1 h3

theorem round_power {v : ℕ} (h : v ∈ x) {p : ℕ} (h1 : 1 ≤ p) (h3 : p ≤ 3) :
    double.round (((v : ℝ) - k) ^ p) = .fin (((v : ℝ) - k) ^ p) := by
  have := round_int (z := ((v : ℤ) - k) ^ p) (by rw [abs_pow]; exact (hx.power h h1 h3).trans (hx.cube h))
  push_cast at this
  exact this

/-- **Only means, power and quotient are rounded.** -/
theorem skew_char (L : SkewLib ℝ) (hL : L.Near) :
    (double.rounding ℝ).skew L x =
      if double.round ((devSum x k 2 : ℝ) / (x.length : ℝ)) = .fin 0 then .fin 0
      else (double.rounding ℝ).div (double.round ((devSum x k 3 : ℝ) / (x.length : ℝ)))
        (L.pow15 (double.round ((devSum x k 2 : ℝ) / (x.length : ℝ)))) := by
  have hlen : (x.length : ℝ) ≠ 0 := by exact_mod_cast hx.pos.ne'
  have ha : x.map (fun v => (double.rounding ℝ).ofNat v) = (x.map (fun v : ℕ => (v : ℤ))).map (fun z : ℤ => .fin (z : ℝ)) := by
    rw [List.map_map]
    apply List.map_congr_left
    intro v hv
    have := round_int (z := (v : ℤ)) (by rw [abs_of_nonneg (by positivity)]; exact_mod_cast hx.value hv)
    exact_mod_cast this
  have hk : double.round (k : ℝ) = .fin (k : ℝ) := by
    have := round_int (z := (k : ℤ)) (by rw [abs_of_nonneg (by positivity)]; exact_mod_cast hx.mean_le)
    exact_mod_cast this
  have hmean : (double.rounding ℝ).mean L (x.map (fun v => (double.rounding ℝ).ofNat v)) = .fin (k : ℝ) := by
    have hs : (x.map (fun v : ℕ => (v : ℤ))).sum = (x.length : ℤ) * k := by
      have := congrArg (fun m : ℕ => (m : ℤ)) hx.sum
      push_cast at this
      rw [← this]
    rw [ha, mean_int L hL _ _ (by rw [List.length_map]; exact hx.pos) (by rw [List.length_map]; exact hx.length), hs,
      List.length_map]
    · push_cast
      rw [mul_div_assoc, mul_comm, div_mul_cancel₀ _ hlen, hk]
    · rw [List.map_map, List.map_congr_left (g := fun v : ℕ => (v : ℤ)) (by intro v _; simp), hs]
      exact_mod_cast hx.small
  have hz : (x.map (fun v => (double.rounding ℝ).ofNat v)).map
      (fun v => (double.rounding ℝ).sub v ((double.rounding ℝ).mean L (x.map (fun v => (double.rounding ℝ).ofNat v)))) =
      x.map (fun v : ℕ => .fin ((v : ℝ) - k)) := by
    rw [hmean, ha, List.map_map, List.map_map]
    apply List.map_congr_left
    intro v hv
    have := round_power hx hv (p := 1) le_rfl (by norm_num)
    rw [pow_one] at this
    exact this
  have h2 : (double.rounding ℝ).mean L ((x.map (fun v : ℕ => (.fin ((v : ℝ) - k) : XR ℝ))).map
      (fun v => (double.rounding ℝ).mul v v)) = double.round ((devSum x k 2 : ℝ) / (x.length : ℝ)) := by
    have e : (x.map (fun v : ℕ => (.fin ((v : ℝ) - k) : XR ℝ))).map (fun v => (double.rounding ℝ).mul v v) =
        (x.map (fun v : ℕ => ((v : ℤ) - k) ^ 2)).map (fun z : ℤ => .fin (z : ℝ)) := by
      rw [List.map_map, List.map_map]
      apply List.map_congr_left
      intro v hv
      have := round_power hx hv (p := 2) (by norm_num) (by norm_num)
      rw [pow_two] at this
      simp only [Function.comp_apply]
      push_cast
      rw [pow_two]
      exact this
    rw [e, mean_int L hL _ (hx.powers (by norm_num) (by norm_num)) (by rw [List.length_map]; exact hx.pos)
      (by rw [List.length_map]; exact hx.length), List.length_map]
    rfl
  have h3 : (double.rounding ℝ).mean L ((x.map (fun v : ℕ => (.fin ((v : ℝ) - k) : XR ℝ))).map
      (fun v => (double.rounding ℝ).mul ((double.rounding ℝ).mul v v) v)) =
      double.round ((devSum x k 3 : ℝ) / (x.length : ℝ)) := by
    have e : (x.map (fun v : ℕ => (.fin ((v : ℝ) - k) : XR ℝ))).map
        (fun v => (double.rounding ℝ).mul ((double.rounding ℝ).mul v v) v) =
        (x.map (fun v : ℕ => ((v : ℤ) - k) ^ 3)).map (fun z : ℤ => .fin (z : ℝ)) := by
      rw [List.map_map, List.map_map]
      apply List.map_congr_left
      intro v hv
      have q2 := round_power hx hv (p := 2) (by norm_num) (by norm_num)
      rw [pow_two] at q2
      have q3 := round_power hx hv (p := 3) (by norm_num) (by norm_num)
      rw [pow_succ, pow_two] at q3
      simp only [Function.comp_apply]
      have q2' : (double.rounding ℝ).mul (.fin ((v : ℝ) - k)) (.fin ((v : ℝ) - k)) =
          .fin (((v : ℝ) - k) * ((v : ℝ) - k)) := q2
      push_cast
      rw [q2', pow_succ, pow_two]
      exact q3
    rw [e, mean_int L hL _ (hx.powers (by norm_num) (by norm_num)) (by rw [List.length_map]; exact hx.pos)
      (by rw [List.length_map]; exact hx.length), List.length_map]
    rfl
  unfold skew
  simp only
  rw [hz, h2, h3]

end

theorem rel_factor {x y c : ℝ} (hc : 0 ≤ c) (h : |y - x| ≤ c * |x|) : ∃ ε, |ε| ≤ c ∧ y = (1 + ε) * x := by
  rcases eq_or_ne x 0 with rfl | hx
  · refine ⟨0, by simpa using hc, ?_⟩
    simpa using h
  · refine ⟨(y - x) / x, ?_, by field_simp; ring⟩
    rw [abs_div, div_le_iff₀ (abs_pos.2 hx)]
    exact h

theorem u_small : u ≤ 1 / 64 := by
  rw [u_eq]
  norm_num

theorem pow15_mono {a b c : ℝ} (hc : 1 / 2 ≤ c) (ha : 0 < a) (h : c * a ≤ b) (hc1 : c ≤ 1) :
    c ^ 2 * a ^ (1.5 : ℝ) ≤ b ^ (1.5 : ℝ) := by
  have hc0 : 0 < c := by linarith
  have h1 : (c * a) ^ (1.5 : ℝ) ≤ b ^ (1.5 : ℝ) := Real.rpow_le_rpow (by positivity) h (by norm_num)
  refine le_trans ?_ h1
  rw [Real.mul_rpow hc0.le ha.le]
  refine mul_le_mul_of_nonneg_right ?_ (by positivity)
  rw [← Real.rpow_natCast]
  exact Real.rpow_le_rpow_of_exponent_ge hc0 hc1 (by norm_num)

theorem pow15_le {a b c : ℝ} (hc : 1 ≤ c) (ha : 0 < a) (hb : 0 ≤ b) (h : b ≤ c * a) :
    b ^ (1.5 : ℝ) ≤ c ^ 2 * a ^ (1.5 : ℝ) := by
  have hc0 : 0 < c := by linarith
  have h1 : b ^ (1.5 : ℝ) ≤ (c * a) ^ (1.5 : ℝ) := Real.rpow_le_rpow hb h (by norm_num)
  refine h1.trans ?_
  rw [Real.mul_rpow hc0.le ha.le]
  refine mul_le_mul_of_nonneg_right ?_ (by positivity)
  rw [← Real.rpow_natCast]
  exact Real.rpow_le_rpow_of_exponent_le hc (by norm_num)

/-- Five roundings of a quotient with a power 3/2. -/
theorem quotient_error {a b y2 y3 w s : ℝ} (ha : 0 < a) (h2 : |y2 - a| ≤ u * |a|) (h3 : |y3 - b| ≤ u * |b|)
    (hw : |w - y2 ^ (1.5 : ℝ)| ≤ 2 * u * y2 ^ (1.5 : ℝ)) (hs : |s - y3 / w| ≤ u * |y3 / w|) :
    |s - b / a ^ (1.5 : ℝ)| ≤ 8 * u * |b / a ^ (1.5 : ℝ)| := by
  have u0 := u_pos
  have u1 := u_small
  generalize u = v at *
  rw [abs_of_pos ha] at h2
  have q2 := abs_le.1 h2
  have hA : 0 < a ^ (1.5 : ℝ) := by positivity
  have lo : (1 - v) ^ 2 * a ^ (1.5 : ℝ) ≤ y2 ^ (1.5 : ℝ) := pow15_mono (by linarith) ha (by linarith) (by linarith)
  have y2pos : 0 < y2 := by nlinarith
  have hi : y2 ^ (1.5 : ℝ) ≤ (1 + v) ^ 2 * a ^ (1.5 : ℝ) := pow15_le (by linarith) ha y2pos.le (by linarith)
  have hw' := abs_le.1 hw
  generalize y2 ^ (1.5 : ℝ) = Y at *
  generalize a ^ (1.5 : ℝ) = A at *
  obtain ⟨δ, hδ, rfl⟩ := rel_factor u0.le hs
  obtain ⟨ε, hε, rfl⟩ := rel_factor u0.le h3
  have wlo : (1 - 2 * v) * (1 - v) ^ 2 * A ≤ w := by
    have : (1 - 2 * v) * ((1 - v) ^ 2 * A) ≤ (1 - 2 * v) * Y := mul_le_mul_of_nonneg_left lo (by linarith)
    linarith
  have whi : w ≤ (1 + 2 * v) * (1 + v) ^ 2 * A := by
    have : (1 + 2 * v) * Y ≤ (1 + 2 * v) * ((1 + v) ^ 2 * A) := mul_le_mul_of_nonneg_left hi (by linarith)
    linarith
  have hl0 : 0 < (1 - 2 * v) * (1 - v) ^ 2 := by
    have : 0 < 1 - 2 * v := by linarith
    have : 0 < 1 - v := by linarith
    positivity
  have wpos : 0 < w := (mul_pos hl0 hA).trans_le wlo
  have key : |(1 + δ) * (1 + ε) * A - w| ≤ 8 * v * w := by
    have d := abs_le.1 hδ
    have e := abs_le.1 hε
    have p1 : (1 + δ) * (1 + ε) ≤ (1 + v) ^ 2 := by nlinarith
    have p2 : (1 - v) ^ 2 ≤ (1 + δ) * (1 + ε) := by nlinarith
    have P1 := mul_le_mul_of_nonneg_right p1 hA.le
    have P2 := mul_le_mul_of_nonneg_right p2 hA.le
    have r1 : (1 + v) ^ 2 ≤ (1 + 8 * v) * ((1 - 2 * v) * (1 - v) ^ 2) := by
      have : (1 + 8 * v) * ((1 - 2 * v) * (1 - v) ^ 2) - (1 + v) ^ 2 = v * (2 - 28 * v + 38 * v ^ 2 - 16 * v ^ 3) := by ring
      have : 0 ≤ v * (2 - 28 * v + 38 * v ^ 2 - 16 * v ^ 3) := by
        apply mul_nonneg u0.le
        nlinarith [pow_nonneg u0.le 2, pow_nonneg u0.le 3, mul_nonneg (pow_nonneg u0.le 2) (sub_nonneg.2 u1)]
      linarith
    have r2 : (1 - 8 * v) * ((1 + 2 * v) * (1 + v) ^ 2) ≤ (1 - v) ^ 2 := by
      have : (1 - v) ^ 2 - (1 - 8 * v) * ((1 + 2 * v) * (1 + v) ^ 2) = v * (2 + 28 * v + 38 * v ^ 2 + 16 * v ^ 3) := by ring
      have : 0 ≤ v * (2 + 28 * v + 38 * v ^ 2 + 16 * v ^ 3) := by positivity
      linarith
    have R1 := mul_le_mul_of_nonneg_right r1 hA.le
    have R2 := mul_le_mul_of_nonneg_right r2 hA.le
    have W1 := mul_le_mul_of_nonneg_left wlo (show 0 ≤ 1 + 8 * v by linarith)
    have W2 := mul_le_mul_of_nonneg_left whi (show 0 ≤ 1 - 8 * v by linarith)
    rw [abs_le]
    constructor <;> linarith
  have e1 : (1 + δ) * ((1 + ε) * b / w) - b / A = b / A * (((1 + δ) * (1 + ε) * A - w) / w) := by
    field_simp
  rw [e1, abs_mul, mul_comm]
  refine mul_le_mul_of_nonneg_right ?_ (abs_nonneg _)
  rw [abs_div, abs_of_pos wpos, div_le_iff₀ wpos]
  exact key

theorem half_pow {e : ℤ} {x y : ℝ} (h : 2 ^ e ≤ x) (h' : x / 2 ≤ y) : (2 : ℝ) ^ (e - 1) ≤ y := by
  rw [zpow_sub_one₀ two_ne_zero]
  linarith

theorem twice_pow {e : ℤ} {x y : ℝ} (h : x ≤ 2 ^ e) (h' : y ≤ x * 2) : y ≤ (2 : ℝ) ^ (e + 1) := by
  rw [zpow_add_one₀ two_ne_zero]
  linarith

/-- **C213, for any list of counts.** -/
theorem skew_error (L : SkewLib ℝ) (hL : L.Near) {x : List ℕ} {k : ℕ} (hx : SkewExact x k) :
    ∃ s, (double.rounding ℝ).skew L x = .fin s ∧ |s - Hubness.skew x| ≤ 8 * u * |Hubness.skew x| := by
  have hlen : (0 : ℝ) < (x.length : ℝ) := by exact_mod_cast hx.pos
  have hlen' : (x.length : ℝ) ≤ 2 ^ 53 := by exact_mod_cast hx.length
  have hreal : Hubness.skew x = if (devSum x k 2 : ℝ) / (x.length : ℝ) = 0 then 0
      else ((devSum x k 3 : ℝ) / (x.length : ℝ)) / ((devSum x k 2 : ℝ) / (x.length : ℝ)) ^ (1.5 : ℝ) := by
    have hm : (x.map (fun v : ℕ => (v : ℝ))).sum / (x.length : ℝ) = k := by
      rw [← Nat.cast_list_sum, hx.sum]
      push_cast
      rw [mul_div_assoc, mul_comm, div_mul_cancel₀ _ hlen.ne']
    have hd : ∀ p, (x.map (fun v : ℕ => ((v : ℝ) - k) ^ p)).sum = (devSum x k p : ℝ) := by
      intro p
      unfold devSum
      rw [Int.cast_list_sum, List.map_map]
      congr 1
      apply List.map_congr_left
      intro v _
      simp
    unfold Hubness.skew
    simp only [hm, hd]
  have hin : ∀ z : ℤ, |z| ≤ 2 ^ 53 → Within (-53) 53 ((z : ℝ) / (x.length : ℝ)) := by
    intro z hz
    rcases eq_or_ne z 0 with rfl | h0
    · left; simp
    · right
      have h1 : (1 : ℝ) ≤ |(z : ℝ)| := by
        rw [← Int.cast_abs]
        exact_mod_cast Int.one_le_abs h0
      have h2 : |(z : ℝ)| ≤ 2 ^ 53 := by
        rw [← Int.cast_abs]
        exact_mod_cast hz
      rw [abs_div, abs_of_pos hlen]
      constructor
      · rw [le_div_iff₀ hlen]
        refine le_trans ?_ h1
        calc (2 : ℝ) ^ (-53 : ℤ) * (x.length : ℝ) ≤ 2 ^ (-53 : ℤ) * 2 ^ 53 := mul_le_mul_of_nonneg_left hlen' (by positivity)
          _ = 1 := by norm_num
      · refine (div_le_self (abs_nonneg _) (by exact_mod_cast hx.pos)).trans (h2.trans (by norm_num))
  have habs : ∀ p, 1 ≤ p → p ≤ 3 → |devSum x k p| ≤ 2 ^ 53 := by
    intro p h1 h3
    have habs : ∀ l : List ℤ, |l.sum| ≤ (l.map (|·|)).sum := by
      intro l
      induction l with
      | nil => simp
      | cons a l ih =>
        simp only [List.sum_cons, List.map_cons]
        exact (abs_add_le _ _).trans (by linarith)
    exact (habs _).trans (hx.powers h1 h3)
  have w2 := hin _ (habs 2 (by norm_num) (by norm_num))
  have w3 := hin _ (habs 3 (by norm_num) (by norm_num))
  rw [skew_char hx L hL, hreal]
  set a := (devSum x k 2 : ℝ) / (x.length : ℝ) with ha
  set b := (devSum x k 3 : ℝ) / (x.length : ℝ) with hb
  have hp : ∀ z : ℝ, Within (-200) 200 z → ∃ y, double.round z = .fin y ∧ |y - z| ≤ u * |z| := by
    intro z hz
    obtain ⟨y, e, _, h⟩ := round_rel double (x := z) (hz.imp id (fun h => le_trans (zpow_le_zpow_right₀ one_le_two (by decide)) h.1))
      (by
        rcases hz with rfl | h
        · rw [abs_zero]; positivity
        · exact h.2.trans (zpow_le_zpow_right₀ one_le_two (by decide)))
    exact ⟨y, e, h⟩
  obtain ⟨y2, e2, r2⟩ := hp a (within_mono w2 (by norm_num) (by norm_num))
  obtain ⟨y3, e3, r3⟩ := hp b (within_mono w3 (by norm_num) (by norm_num))
  have u0 := u_pos
  have u1 := u_small
  have ha0 : 0 ≤ a := by
    apply div_nonneg _ hlen.le
    have : 0 ≤ devSum x k 2 := by
      apply List.sum_nonneg
      intro y hy
      obtain ⟨z, _, rfl⟩ := List.mem_map.1 hy
      positivity
    exact_mod_cast this
  rw [e2, e3]
  rcases eq_or_lt_of_le ha0 with h0 | hpos
  · rw [← h0, abs_zero, mul_zero, sub_zero] at r2
    have : y2 = 0 := abs_eq_zero.1 (le_antisymm r2 (abs_nonneg _))
    rw [if_pos (by rw [this]), if_pos h0.symm]
    exact ⟨0, rfl, by simp⟩
  · obtain ⟨l2, m2⟩ := w2.resolve_left hpos.ne'
    rw [abs_of_pos hpos] at l2 m2
    have r2' := abs_le.1 (by rw [abs_of_pos hpos] at r2; exact r2)
    have b1 : u * a ≤ 1 / 64 * a := mul_le_mul_of_nonneg_right u1 hpos.le
    have l := half_pow l2 (show a / 2 ≤ y2 by clear l2 m2; linarith)
    have m := twice_pow m2 (show y2 ≤ a * 2 by clear l2 m2; linarith)
    rw [show (-53 - 1 : ℤ) = -54 by norm_num] at l
    rw [show (53 + 1 : ℤ) = 54 by norm_num] at m
    have y2pos : 0 < y2 := (zpow_pos two_pos _).trans_le l
    rw [if_neg (by rw [XR.fin.injEq]; exact y2pos.ne'), if_neg hpos.ne']
    obtain ⟨w, ew, hw⟩ := hL.pow_near y2 (le_trans (zpow_le_zpow_right₀ one_le_two (by norm_num)) l)
      (m.trans (zpow_le_zpow_right₀ one_le_two (by norm_num)))
    rw [ew]
    have plo : (2 : ℝ) ^ (-108 : ℤ) ≤ y2 ^ (1.5 : ℝ) := by
      have h1 : ((2 : ℝ) ^ (-54 : ℤ)) ^ (1.5 : ℝ) ≤ y2 ^ (1.5 : ℝ) := Real.rpow_le_rpow (by positivity) l (by norm_num)
      refine le_trans ?_ h1
      have h2 : ((2 : ℝ) ^ (-54 : ℤ)) ^ ((2 : ℕ) : ℝ) ≤ ((2 : ℝ) ^ (-54 : ℤ)) ^ (1.5 : ℝ) :=
        Real.rpow_le_rpow_of_exponent_ge (by positivity) (by norm_num) (by norm_num)
      refine le_trans (le_of_eq ?_) h2
      rw [Real.rpow_natCast]
      norm_num
    have phi : y2 ^ (1.5 : ℝ) ≤ (2 : ℝ) ^ (108 : ℤ) := by
      have h1 : y2 ^ (1.5 : ℝ) ≤ ((2 : ℝ) ^ (54 : ℤ)) ^ (1.5 : ℝ) := Real.rpow_le_rpow y2pos.le m (by norm_num)
      refine h1.trans ?_
      have h2 : ((2 : ℝ) ^ (54 : ℤ)) ^ (1.5 : ℝ) ≤ ((2 : ℝ) ^ (54 : ℤ)) ^ ((2 : ℕ) : ℝ) :=
        Real.rpow_le_rpow_of_exponent_le (by norm_num) (by norm_num)
      refine h2.trans (le_of_eq ?_)
      rw [Real.rpow_natCast]
      norm_num
    have hw' := abs_le.1 hw
    have ppos : 0 < y2 ^ (1.5 : ℝ) := by positivity
    have b2 : 2 * u * y2 ^ (1.5 : ℝ) ≤ 1 / 32 * y2 ^ (1.5 : ℝ) := mul_le_mul_of_nonneg_right (by linarith) ppos.le
    have wlo := half_pow plo (show y2 ^ (1.5 : ℝ) / 2 ≤ w by clear plo phi l2 m2 l m; linarith)
    have whi := twice_pow phi (show w ≤ y2 ^ (1.5 : ℝ) * 2 by clear plo phi l2 m2 l m; linarith)
    rw [show (-108 - 1 : ℤ) = -109 by norm_num] at wlo
    rw [show (108 + 1 : ℤ) = 109 by norm_num] at whi
    have wpos : 0 < w := (zpow_pos two_pos _).trans_le wlo
    have hq : Within (-200) 200 (y3 / w) := by
      rcases w3 with hb0 | ⟨l3, m3⟩
      · rw [hb0, abs_zero, mul_zero, sub_zero] at r3
        have : y3 = 0 := abs_eq_zero.1 (le_antisymm r3 (abs_nonneg _))
        left
        rw [this, zero_div]
      · right
        have b3 : u * |b| ≤ 1 / 64 * |b| := mul_le_mul_of_nonneg_right u1 (abs_nonneg _)
        have t1 : |y3| ≤ |y3 - b| + |b| := by simpa using abs_add_le (y3 - b) b
        have t2 : |b| ≤ |y3 - b| + |y3| := by
          have := abs_add_le (b - y3) y3
          rw [abs_sub_comm b y3] at this
          simpa using this
        have hb0 := abs_nonneg b
        have L3 := half_pow l3 (show |b| / 2 ≤ |y3| by clear plo phi l2 m2 l m l3 m3 wlo whi; linarith)
        have M3 := twice_pow m3 (show |y3| ≤ |b| * 2 by clear plo phi l2 m2 l m l3 m3 wlo whi; linarith)
        rw [show (-53 - 1 : ℤ) = -54 by norm_num] at L3
        rw [show (53 + 1 : ℤ) = 54 by norm_num] at M3
        rw [abs_div, abs_of_pos wpos]
        constructor
        · rw [le_div_iff₀ wpos]
          refine le_trans ?_ L3
          calc (2 : ℝ) ^ (-200 : ℤ) * w ≤ 2 ^ (-200 : ℤ) * 2 ^ (109 : ℤ) := mul_le_mul_of_nonneg_left whi (by positivity)
            _ = 2 ^ (-91 : ℤ) := by rw [← zpow_add₀ two_ne_zero]; norm_num
            _ ≤ 2 ^ (-54 : ℤ) := zpow_le_zpow_right₀ one_le_two (by norm_num)
        · rw [div_le_iff₀ wpos]
          refine M3.trans ?_
          calc (2 : ℝ) ^ (54 : ℤ) ≤ 2 ^ (91 : ℤ) := zpow_le_zpow_right₀ one_le_two (by norm_num)
            _ = 2 ^ (200 : ℤ) * 2 ^ (-109 : ℤ) := by rw [← zpow_add₀ two_ne_zero]; norm_num
            _ ≤ 2 ^ (200 : ℤ) * w := mul_le_mul_of_nonneg_left wlo (by positivity)
    obtain ⟨s, es, hs⟩ := hp _ hq
    refine ⟨s, ?_, quotient_error hpos r2 r3 hw hs⟩
    unfold div
    rw [XR.div, if_neg wpos.ne']
    exact es

/-- The counts of a square matrix. -/
theorem hubness_exact {K : Type} [LinearOrder K] [Zero K] (o : ArgPart (XR K)) (rnd : Hubness.Rnd) (sched : Hubness.Schedule) {n : ℕ}
    (sparse : Bool) (D : Fin n → Fin n → XR K) (k : ℤ) (metric : String) (nJobs : ℤ) (seed shuffle : Bool)
    (hsize : n ^ 3 * ((min k ((n : ℤ) - 1)).toNat + 1) ≤ 2 ^ 52) (r : Hubness.Res n)
    (h : Hubness.hubnessMat o rnd sched sparse D k metric nJobs seed shuffle = .ok r) :
    SkewExact r.Nk (min k ((n : ℤ) - 1)).toNat := by
  have hc : Hubness.Covered nJobs metric n n := fun ⟨_, _, h⟩ => h rfl
  obtain ⟨h1, h2, h3⟩ := Hubness.C03_k_occurrence o rnd sched sparse D k metric nJobs seed shuffle hc r h
  have hn : 0 < n := ((Hubness.C01_hubness_succeeds_iff o rnd sched sparse D k metric nJobs seed shuffle hc).1 ⟨r, h⟩).2.2.1
  generalize hk : (min k ((n : ℤ) - 1)).toNat = κ at *
  have hκ : κ ≤ n := by omega
  have hcube : 1 ≤ n ^ 3 := Nat.one_le_pow _ _ hn
  have hle : n ≤ n ^ 3 := Nat.le_self_pow (by norm_num) n
  refine ⟨by rw [h1]; exact hn, by rw [h3, h1], ?_, ?_, ?_⟩
  · rw [h1]
    calc n * κ ≤ n ^ 3 * (κ + 1) := Nat.mul_le_mul hle (Nat.le_succ κ)
      _ ≤ 2 ^ 53 := hsize.trans (by norm_num)
  · rw [h1]
    calc n ≤ n ^ 3 * (κ + 1) := hle.trans (Nat.le_mul_of_pos_right _ (Nat.succ_pos κ))
      _ ≤ 2 ^ 53 := hsize.trans (by norm_num)
  · have hv : ∀ v ∈ r.Nk, |(v : ℤ) - κ| ^ 3 ≤ (n : ℤ) ^ 2 * ((v : ℤ) + κ) := by
      intro v hv
      obtain ⟨j, hj, rfl⟩ := List.mem_iff_getElem.1 hv
      have hvn := (h2 j hj).2
      have q1 : |((r.Nk[j] : ℕ) : ℤ) - κ| ≤ n := by rw [abs_le]; omega
      have q2 : |((r.Nk[j] : ℕ) : ℤ) - κ| ≤ (r.Nk[j] : ℕ) + κ := by rw [abs_le]; omega
      rw [pow_succ]
      exact mul_le_mul (pow_le_pow_left₀ (abs_nonneg _) q1 2) q2 (abs_nonneg _) (by positivity)
    refine (List.sum_le_sum hv).trans ?_
    rw [List.sum_map_mul_left, List.sum_map_add]
    have e1 : (r.Nk.map (fun v : ℕ => (v : ℤ))).sum = (n * κ : ℕ) := by
      rw [← h3]
      exact (Nat.cast_list_sum r.Nk).symm
    have e2 : (r.Nk.map (fun _ : ℕ => (κ : ℤ))).sum = (n * κ : ℕ) := by
      rw [List.map_const', List.sum_replicate, h1]
      simp
    rw [e1, e2]
    have : n ^ 2 * (n * κ + n * κ) ≤ 2 ^ 53 := by
      have : n ^ 2 * (n * κ + n * κ) = 2 * (n ^ 3 * κ) := by ring
      have : n ^ 3 * κ ≤ n ^ 3 * (κ + 1) := Nat.mul_le_mul_left _ (Nat.le_succ κ)
      omega
    exact_mod_cast this

/-- **C213.** Hubness computed in double precision differs from the skewness of the k-occurrences by a factor between `1 - 2 ^ -50`
and `1 + 2 ^ -50`, whatever the number of objects; in particular zero and the sign are right. -/
theorem C213 (L : SkewLib ℝ) (hL : L.Near) {K : Type} [LinearOrder K] [Zero K] (o : ArgPart (XR K)) (rnd : Hubness.Rnd)
    (sched : Hubness.Schedule) {n : ℕ} (sparse : Bool) (D : Fin n → Fin n → XR K) (k : ℤ) (metric : String) (nJobs : ℤ)
    (seed shuffle : Bool) (hsize : n ^ 3 * ((min k ((n : ℤ) - 1)).toNat + 1) ≤ 2 ^ 52) (r : Hubness.Res n)
    (h : Hubness.hubnessMat o rnd sched sparse D k metric nJobs seed shuffle = .ok r) (exact : ℝ)
    (he : exact = Spec.skewness (fun j : Fin n => (Spec.occurrences r.Dk j.val : ℝ)) (min k ((n : ℤ) - 1)).toNat) :
    ∃ s, (double.rounding ℝ).skew L r.Nk = .fin s ∧ |s - exact| ≤ 2 ^ (-50 : ℤ) * |exact| ∧ (s = 0 ↔ exact = 0) ∧
      (0 < s ↔ 0 < exact) := by
  have hc : Hubness.Covered nJobs metric n n := fun ⟨_, _, h⟩ => h rfl
  have hn : 0 < n := ((Hubness.C01_hubness_succeeds_iff o rnd sched sparse D k metric nJobs seed shuffle hc).1 ⟨r, h⟩).2.2.1
  have hS := Hubness.C53_skewness o rnd sched sparse D k metric nJobs seed shuffle hc r h
  have hr : r.Sk = Hubness.skew r.Nk := by
    obtain ⟨-, -, _, rfl, -⟩ := Hubness.hubnessMat_inv o rnd sched hc h
    rfl
  have hmean : ((n * (min k ((n : ℤ) - 1)).toNat : ℕ) : ℝ) / (n : ℝ) = ((min k ((n : ℤ) - 1)).toNat : ℕ) := by
    push_cast
    rw [mul_comm, mul_div_assoc, div_self (by exact_mod_cast hn.ne'), mul_one]
  rw [hmean, ← he] at hS
  obtain ⟨s, hs, hb⟩ := skew_error L hL (hubness_exact o rnd sched sparse D k metric nJobs seed shuffle hsize r h)
  rw [← hr, hS] at hb
  have hu : 8 * u = 2 ^ (-50 : ℤ) := by rw [u_eq]; norm_num
  have u1 : 8 * u ≤ 1 / 8 := by have := u_small; linarith
  have b1 : 8 * u * |exact| ≤ 1 / 8 * |exact| := mul_le_mul_of_nonneg_right u1 (abs_nonneg _)
  have hb' := abs_le.1 (hb.trans b1)
  refine ⟨s, hs, hu ▸ hb, ⟨fun h0 => ?_, fun h0 => ?_⟩, fun h0 => ?_, fun h0 => ?_⟩
  · have h1 := hb.trans b1
    rw [h0, zero_sub, abs_neg] at h1
    have := abs_nonneg exact
    exact abs_eq_zero.1 (by linarith)
  · rw [h0, abs_zero] at hb'
    linarith [hb'.1, hb'.2]
  · by_contra hle
    rw [abs_of_nonpos (not_lt.1 hle)] at hb'
    linarith [hb'.2]
  · rw [abs_of_pos h0] at hb'
    linarith [hb'.1]

/-- **C213, order.** Counts in another order, and sums in another order, give the same float. -/
theorem C213_order (L L' : SkewLib ℝ) (hL : L.Near) (hL' : L'.Near) (hp : L.pow15 = L'.pow15) {K : Type} [LinearOrder K] [Zero K]
    (o o' : ArgPart (XR K)) (rnd rnd' : Hubness.Rnd) (sched sched' : Hubness.Schedule) {n : ℕ} (sparse sparse' : Bool)
    (D D' : Fin n → Fin n → XR K) (k : ℤ) (metric metric' : String) (nJobs nJobs' : ℤ) (seed seed' shuffle shuffle' : Bool)
    (hsize : n ^ 3 * ((min k ((n : ℤ) - 1)).toNat + 1) ≤ 2 ^ 52) (r r' : Hubness.Res n)
    (h : Hubness.hubnessMat o rnd sched sparse D k metric nJobs seed shuffle = .ok r)
    (h' : Hubness.hubnessMat o' rnd' sched' sparse' D' k metric' nJobs' seed' shuffle' = .ok r')
    (hperm : r.Nk.Perm r'.Nk) : (double.rounding ℝ).skew L r.Nk = (double.rounding ℝ).skew L' r'.Nk := by
  rw [skew_char (hubness_exact o rnd sched sparse D k metric nJobs seed shuffle hsize r h) L hL,
    skew_char (hubness_exact o' rnd' sched' sparse' D' k metric' nJobs' seed' shuffle' hsize r' h') L' hL', hp, hperm.length_eq]
  have e : ∀ p, devSum r.Nk (min k ((n : ℤ) - 1)).toNat p = devSum r'.Nk (min k ((n : ℤ) - 1)).toNat p := fun p =>
    (hperm.map _).sum_eq
  rw [e, e]

/-! ## The hypotheses can be met -/

/-- Sums from left to right, correctly rounded powers. -/
noncomputable def SkewLib.rounded : SkewLib ℝ where
  sum l := l.foldl (double.rounding ℝ).add (.fin 0)
  pow15 a := match a with
    | .fin x => double.round (x ^ (1.5 : ℝ))
    | _ => .nan

theorem SkewLib.rounded_near : SkewLib.rounded.Near where
  sum_some_order l hl := sums_foldl _ l hl
  pow_near x h1 h2 := by
    have hx : 0 < x := (zpow_pos two_pos _).trans_le h1
    have lo : (2 : ℝ) ^ (-120 : ℤ) ≤ x ^ (1.5 : ℝ) := by
      have h3 : ((2 : ℝ) ^ (-60 : ℤ)) ^ (1.5 : ℝ) ≤ x ^ (1.5 : ℝ) := Real.rpow_le_rpow (by positivity) h1 (by norm_num)
      refine le_trans ?_ h3
      have h4 : ((2 : ℝ) ^ (-60 : ℤ)) ^ ((2 : ℕ) : ℝ) ≤ ((2 : ℝ) ^ (-60 : ℤ)) ^ (1.5 : ℝ) :=
        Real.rpow_le_rpow_of_exponent_ge (by positivity) (by norm_num) (by norm_num)
      refine le_trans (le_of_eq ?_) h4
      rw [Real.rpow_natCast]
      norm_num
    have hi : x ^ (1.5 : ℝ) ≤ (2 : ℝ) ^ (120 : ℤ) := by
      have h3 : x ^ (1.5 : ℝ) ≤ ((2 : ℝ) ^ (60 : ℤ)) ^ (1.5 : ℝ) := Real.rpow_le_rpow hx.le h2 (by norm_num)
      refine h3.trans ?_
      have h4 : ((2 : ℝ) ^ (60 : ℤ)) ^ (1.5 : ℝ) ≤ ((2 : ℝ) ^ (60 : ℤ)) ^ ((2 : ℕ) : ℝ) :=
        Real.rpow_le_rpow_of_exponent_le (by norm_num) (by norm_num)
      refine h4.trans (le_of_eq ?_)
      rw [Real.rpow_natCast]
      norm_num
    have hpos : 0 < x ^ (1.5 : ℝ) := by positivity
    obtain ⟨y, e, _, h⟩ := round_rel double (x := x ^ (1.5 : ℝ))
      (Or.inr (by rw [abs_of_pos hpos]; exact le_trans (zpow_le_zpow_right₀ one_le_two (by decide)) lo))
      (by rw [abs_of_pos hpos]; exact hi.trans (zpow_le_zpow_right₀ one_le_two (by decide)))
    refine ⟨y, e, h.trans ?_⟩
    rw [abs_of_pos hpos]
    have := u_pos
    exact mul_le_mul_of_nonneg_right (by linarith) hpos.le

-- 50000 objects with ten neighbours are few enough.
example : 50000 ^ 3 * ((min (10 : ℤ) ((50000 : ℕ) - 1)).toNat + 1) ≤ 2 ^ 52 := by decide

example (o : ArgPart (XR ℚ)) (rnd : Hubness.Rnd) :
    ∃ r, ∃ s, (double.rounding ℝ).skew SkewLib.rounded r.Nk = .fin s ∧
      Hubness.hubnessMat o rnd Hubness.reverseOrder false Hubness.exD 2 "distance" 4 false true = .ok r := by
  obtain ⟨r, h⟩ := Hubness.exD_parallel o rnd Hubness.exD "distance" (Or.inl rfl)
  obtain ⟨s, hs, -⟩ := C213 _ SkewLib.rounded_near o rnd _ false _ 2 "distance" 4 false true (by decide) r h _ rfl
  exact ⟨r, s, hs, h⟩

end HubToolbox.Rounding
