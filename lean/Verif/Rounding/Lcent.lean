import Verif.Rounding.LcentModel
import Verif.Rounding.GaussError
import Verif.Rounding.GkProps

/-!
# Accuracy of localized centering in double precision (C292)
-/

set_option autoImplicit false

namespace HubToolbox.Rounding

open HubToolbox.Ieee (double)

/-- What is assumed of the library functions besides `CosLib.Near`: the square root of zero is zero, and inner products of short vectors have the
usual error bound including underflow of products. -/
structure CosLib.Centers (L : CosLib ℝ) : Prop extends L.Near where
  sqrt_zero : L.sqrt (.fin 0) = .fin 0
  dot_abs : ∀ {d : ℕ} (x y : Fin d → ℝ), d ≤ 2 ^ 40 → (∀ f, double.round (x f) = .fin (x f)) → (∀ f, double.round (y f) = .fin (y f)) →
    (∀ f, |x f| ≤ 2) → (∀ f, |y f| ≤ 2) →
    ∃ v, L.dot (List.ofFn (fun f => .fin (x f))) (List.ofFn (fun f => .fin (y f))) = .fin v ∧ double.round v = .fin v ∧
      |v - ∑ f, x f * y f| ≤ ((1 + u) ^ d - 1) * ∑ f, |x f * y f| + d * 2 ^ (-1000 : ℤ)

/-- Rounding with underflow. -/
theorem round_abs' {x : ℝ} (h : |x| ≤ 2 ^ (1000 : ℤ)) :
    ∃ y, double.round x = .fin y ∧ double.round y = .fin y ∧ |y - x| ≤ u * |x| + 2 ^ (-1010 : ℤ) := by
  have hu := u_pos
  have ht : (0 : ℝ) < 2 ^ (-1010 : ℤ) := zpow_pos two_pos _
  by_cases hx : (2 : ℝ) ^ double.emin ≤ |x|
  · obtain ⟨y, h1, h2, h3⟩ := Ieee.round_rel double (Or.inr hx) (double_emax (a := 1000) (by norm_num) h)
    exact ⟨y, h1, h2, h3.trans (le_add_of_nonneg_right ht.le)⟩
  · obtain ⟨y, h1, h2, h3⟩ := Ieee.round_bound double (x := x) (b := 2 ^ double.emin) (not_le.1 hx).le le_rfl (zpow_le_zpow_right₀ one_le_two (by decide))
    refine ⟨y, h1, h2, h3.trans ?_⟩
    have e1 : u * 2 ^ double.emin ≤ 1 * 2 ^ double.emin := mul_le_mul_of_nonneg_right (by linarith [u_le]) (zpow_pos two_pos _).le
    have e2 : (2 : ℝ) ^ double.emin ≤ 2 ^ (-1010 : ℤ) := zpow_le_zpow_right₀ one_le_two (by decide)
    have : 0 ≤ u * |x| := mul_nonneg hu.le (abs_nonneg _)
    change u * 2 ^ double.emin ≤ _
    linarith

theorem round_abs {x : ℝ} (h : |x| ≤ 2 ^ (1000 : ℤ)) :
    ∃ y, double.round x = .fin y ∧ double.round y = .fin y ∧ |y - x| ≤ u * |x| + 2 ^ (-1000 : ℤ) := by
  obtain ⟨y, h1, h2, h3⟩ := round_abs' h
  exact ⟨y, h1, h2, h3.trans (add_le_add_right (two_zpow_le (by norm_num)) _)⟩

/-- Underflow is negligible. -/
theorem tiny_le {d : ℕ} (hd : d ≤ 2 ^ 40) : (d : ℝ) * 2 ^ (-1000 : ℤ) ≤ u / 100 := by
  have h : (d : ℝ) ≤ 2 ^ 40 := by exact_mod_cast hd
  have h1 : (d : ℝ) * 2 ^ (-1000 : ℤ) ≤ 2 ^ 40 * 2 ^ (-1000 : ℤ) := mul_le_mul_of_nonneg_right h (zpow_pos two_pos _).le
  have h2 : (2 : ℝ) ^ 40 * 2 ^ (-1000 : ℤ) = 2 ^ (-960 : ℤ) := by
    rw [← zpow_natCast, ← zpow_add₀ two_ne_zero]
    norm_num
  have h3 : (2 : ℝ) ^ (-960 : ℤ) ≤ 2 ^ (-60 : ℤ) := two_zpow_le (by norm_num)
  have h4 : (2 : ℝ) ^ (-60 : ℤ) = u / 128 := by
    rw [u_eq]
    norm_num
  have h5 : u / 128 ≤ u / 100 := by linarith [u_pos]
  rw [h2] at h1
  rw [h4] at h3
  exact h1.trans (h3.trans h5)

/-! ### Unit vectors -/

theorem unit_sq_le {n d : ℕ} (X : Fin n → Fin d → ℝ) (i : Fin n) : ∑ f, Cent.unit X i f ^ 2 ≤ 1 := by
  have h : ∑ f, Cent.unit X i f ^ 2 = Spec.cosine (X i) (X i) := by
    rw [← Cent.unit_dot]
    exact Finset.sum_congr rfl fun f _ => by ring
  rw [h]
  unfold Spec.cosine Spec.norm
  rw [Real.mul_self_sqrt (by rw [Cent.inner_self_eq]; exact Finset.sum_nonneg fun f _ => sq_nonneg _)]
  exact div_self_le_one _

theorem unit_abs_le {n d : ℕ} (X : Fin n → Fin d → ℝ) (i : Fin n) (f : Fin d) : |Cent.unit X i f| ≤ 1 := by
  have h := (Finset.single_le_sum (f := fun f => Cent.unit X i f ^ 2) (fun f _ => sq_nonneg _) (Finset.mem_univ f)).trans (unit_sq_le X i)
  exact (sq_le_one_iff_abs_le_one _).1 h

theorem unit_prod_le {n l d : ℕ} (X : Fin n → Fin d → ℝ) (Y : Fin l → Fin d → ℝ) (i : Fin n) (j : Fin l) :
    ∑ f, |Cent.unit X i f * Cent.unit Y j f| ≤ 1 := by
  have h : ∀ f, |Cent.unit X i f * Cent.unit Y j f| ≤ (Cent.unit X i f ^ 2 + Cent.unit Y j f ^ 2) / 2 := by
    intro f
    rw [abs_mul, ← sq_abs (Cent.unit X i f), ← sq_abs (Cent.unit Y j f)]
    nlinarith [sq_nonneg (|Cent.unit X i f| - |Cent.unit Y j f|)]
  refine (Finset.sum_le_sum fun f _ => h f).trans ?_
  rw [← Finset.sum_div, Finset.sum_add_distrib]
  linarith [unit_sq_le X i, unit_sq_le Y j]

/-- Data for which the bound holds: floats which are zero or neither tiny nor huge. -/
structure LcentModerate {n d : ℕ} (X : Fin n → Fin d → ℝ) : Prop where
  float : ∀ i f, double.round (X i f) = .fin (X i f)
  within : ∀ i f, Within (-200) 200 (X i f)

/-- The rescaled vectors as computed. -/
theorem unitRow_near (L : CosLib ℝ) (hL : L.Centers) {n d : ℕ} (hd : d ≤ 2 ^ 40) (X : Fin n → Fin d → ℝ) (hX : LcentModerate X) (i : Fin n) :
    ∃ y : Fin d → ℝ, (double.rounding ℝ).unitRow L X i = (fun f => .fin (y f)) ∧ (∀ f, double.round (y f) = .fin (y f)) ∧
      ∀ f, |y f - Cent.unit X i f| ≤ rowErr d * |Cent.unit X i f| := by
  have hd' : d ≤ 2 ^ 46 := hd.trans (by norm_num)
  have hu := u_pos
  by_cases h0 : X i = 0
  · refine ⟨fun _ => 0, ?_, fun _ => (double.rounding ℝ).zero, fun f => ?_⟩
    · have hz : (List.ofFn (fun f => (double.rounding ℝ).mul (.fin (X i f)) (.fin (X i f)))) = (List.replicate d (0 : ℝ)).map .fin := by
        rw [h0, List.map_replicate, ← List.ofFn_const]
        congr 1
        funext f
        change double.round (0 * 0) = _
        rw [zero_mul]
        exact (double.rounding ℝ).zero
      obtain ⟨v, hv, -, he⟩ := Ieee.sum_error double (l := List.replicate d (0 : ℝ)) (hL.sum_some_order _ (by
          intro a ha
          obtain ⟨x, hx, rfl⟩ := List.mem_map.1 ha
          rw [(List.mem_replicate.1 hx).2]
          exact (double.rounding ℝ).zero)) (by
          intro x hx
          rw [(List.mem_replicate.1 hx).2]
          exact (double.rounding ℝ).zero) (by
          rw [List.map_replicate]
          simp only [abs_zero, List.sum_replicate, smul_zero, mul_zero]
          exact (zpow_pos two_pos _).le)
      rw [List.map_replicate] at he
      simp only [abs_zero, List.sum_replicate, smul_zero, mul_zero, sub_zero, abs_nonpos_iff] at he
      subst he
      obtain ⟨t, ht, -, hte⟩ := Ieee.round_rel double (x := (1 / 10 ^ 7 : ℝ)) (Or.inr (by
          rw [abs_of_pos (by norm_num)]
          refine double_emin (a := -30) (by norm_num) ?_
          norm_num)) (by
          rw [abs_of_pos (by norm_num)]
          refine double_emax (a := 0) (by norm_num) ?_
          norm_num)
      have ht0 : t ≠ 0 := by
        rintro rfl
        change |0 - (1 / 10 ^ 7 : ℝ)| ≤ u * _ at hte
        rw [zero_sub, abs_neg] at hte
        have h1 : (0 : ℝ) < |1 / 10 ^ 7| := by norm_num
        nlinarith [u_le]
      unfold unitRow
      simp only
      rw [hz, hv, hL.sqrt_zero, if_pos ⟨by simp [XR.fle], by simp [XR.fle]⟩]
      funext f
      have ht' : (double.rounding ℝ).rnd (1 / 10 ^ 7) = .fin t := ht
      rw [ht', h0]
      change (double.rounding ℝ).up (XR.div (.fin 0) (.fin t)) = _
      have : XR.div (.fin (0 : ℝ)) (.fin t) = .fin 0 := by simp [XR.div, ht0]
      rw [this]
      exact (double.rounding ℝ).zero
    · rw [Cent.unit_eq, h0]
      simp
  · obtain ⟨r, hr, hre⟩ := norm_error L hL.toNear hd' (X i) (hX.within i) h0
    have hN := Dist.norm2_ne_zero h0
    have hq := pow_succ_le hd'
    have hrpos : 0 < r := by
      have := (abs_le.1 hre).1
      nlinarith
    obtain ⟨y, hy, hyf, -, hye⟩ := row_error L hL.toNear hd' (fun _ : Fin 1 => X i) ⟨fun _ => hX.float i, fun _ => hX.within i, fun _ => h0⟩ 0
    refine ⟨y, ?_, hyf, fun f => ?_⟩
    · unfold cosRow at hy
      simp only at hy
      rw [hr] at hy
      unfold unitRow
      simp only
      rw [hr, if_neg (by
        rintro ⟨h1, -⟩
        simp only [XR.fle] at h1
        linarith)]
      exact List.ofFn_injective hy
    · rw [Cent.unit_eq]
      have hn : Spec.norm (X i) = Spec.vecNorm (X i) := by
        unfold Spec.norm Spec.vecNorm
        rw [Cent.inner_self_eq]
      rw [hn]
      exact hye f

/-! ### Similarities -/

section
variable {d k : ℕ} {E : ℝ}

/-- Products of perturbed numbers. -/
theorem prod_near (hE : 0 ≤ E) {y z a b : ℝ} (h1 : |y - a| ≤ E * |a|) (h2 : |z - b| ≤ E * |b|) :
    |y * z - a * b| ≤ ((1 + E) ^ 2 - 1) * |a * b| := by
  have e : y * z - a * b = (y - a) * (z - b) + (y - a) * b + a * (z - b) := by ring
  rw [e, abs_mul a b]
  have h3 := mul_le_mul h1 h2 (abs_nonneg _) (mul_nonneg hE (abs_nonneg _))
  have h4 := mul_le_mul_of_nonneg_right h1 (abs_nonneg b)
  have h5 := mul_le_mul_of_nonneg_left h2 (abs_nonneg a)
  rw [← abs_mul] at h3 h4 h5
  have h6 := abs_add_le ((y - a) * (z - b) + (y - a) * b) (a * (z - b))
  have h7 := abs_add_le ((y - a) * (z - b)) ((y - a) * b)
  nlinarith

theorem inner_near (hE : 0 ≤ E) {y z a b : Fin d → ℝ} (h1 : ∀ f, |y f - a f| ≤ E * |a f|) (h2 : ∀ f, |z f - b f| ≤ E * |b f|)
    (hab : ∑ f, |a f * b f| ≤ 1) :
    |∑ f, y f * z f - ∑ f, a f * b f| ≤ (1 + E) ^ 2 - 1 ∧ ∑ f, |y f * z f| ≤ (1 + E) ^ 2 := by
  have hp := fun f => prod_near hE (h1 f) (h2 f)
  have h0 : 0 ≤ (1 + E) ^ 2 - 1 := by nlinarith
  constructor
  · rw [← Finset.sum_sub_distrib]
    refine (Finset.abs_sum_le_sum_abs _ _).trans ((Finset.sum_le_sum fun f _ => hp f).trans ?_)
    rw [← Finset.mul_sum]
    nlinarith
  · have h3 : ∀ f, |y f * z f| ≤ (1 + E) ^ 2 * |a f * b f| := by
      intro f
      have := abs_add_le (y f * z f - a f * b f) (a f * b f)
      rw [sub_add_cancel] at this
      linarith [hp f]
    refine (Finset.sum_le_sum fun f _ => h3 f).trans ?_
    rw [← Finset.mul_sum]
    nlinarith

/-- Entries stay below two. -/
theorem entry_le (hE : E ≤ 1 / 2) {y a : ℝ} (ha : |a| ≤ 1) (h : |y - a| ≤ E * |a|) : |y| ≤ 3 / 2 := by
  have := abs_add_le (y - a) a
  rw [sub_add_cancel] at this
  nlinarith [abs_nonneg a]

theorem pow_sub_one_nonneg (m : ℕ) : 0 ≤ (1 + u) ^ m - 1 := by
  have : 1 ≤ (1 + u) ^ m := one_le_pow₀ (by linarith [u_pos])
  linarith

theorem pow_sub_one_le' (hk : k ≤ 2 ^ 40) : (1 + u) ^ k - 1 ≤ 3 / 2 * (k * u) := by
  have hku := mu_le hk
  have h0 : 0 ≤ (k : ℝ) * u := mul_nonneg (Nat.cast_nonneg _) u_pos.le
  have h1 := pow_le (m := k) (by linarith [show (1 : ℝ) / 2 ^ 13 < 1 by norm_num])
  have h2 : 1 / (1 - (k : ℝ) * u) ≤ 1 + 3 / 2 * (k * u) := by
    rw [div_le_iff₀ (by linarith [show (1 : ℝ) / 2 ^ 13 < 1 by norm_num])]
    nlinarith [show (1 : ℝ) / 2 ^ 13 ≤ 1 / 100 by norm_num]
  linarith

/-- The error of cosine similarities. -/
theorem cos_total (h0 : 0 < d) (hd : d ≤ 2 ^ 40) : (1 + rowErr d) ^ 2 * (1 + u) ^ d ≤ 1 + 4 * (d + 2) * u - 2 * u := by
  have h := total_error h0 (hd.trans (by norm_num))
  have hu := u_pos
  have h1 : 1 ≤ (1 + rowErr d) ^ 2 * (1 + u) ^ d := by
    have e1 := rowErr_nonneg (hd.trans (by norm_num : 2 ^ 40 ≤ 2 ^ 46))
    have e2 : 1 ≤ (1 + rowErr d) ^ 2 := one_le_pow₀ (by linarith)
    have e3 : 1 ≤ (1 + u) ^ d := one_le_pow₀ (by linarith)
    nlinarith
  nlinarith

theorem rowErr_le_half (h0 : 0 < d) (hd : d ≤ 2 ^ 40) : rowErr d ≤ 1 / 100 := by
  have h := cos_total h0 hd
  have hu := u_pos
  have e1 := rowErr_nonneg (hd.trans (by norm_num : 2 ^ 40 ≤ 2 ^ 46))
  have e3 : 1 ≤ (1 + u) ^ d := one_le_pow₀ (by linarith)
  have h1 : (1 + rowErr d) ^ 2 ≤ (1 + rowErr d) ^ 2 * (1 + u) ^ d := le_mul_of_one_le_right (sq_nonneg _) e3
  have hdu := mu_le hd
  have hd1 : (1 : ℝ) ≤ d := by exact_mod_cast h0
  have hu13 : u ≤ 1 / 2 ^ 13 := by nlinarith
  have : (1 / 2 ^ 13 : ℝ) ≤ 1 / 8000 := by norm_num
  nlinarith

theorem sim_near (L : CosLib ℝ) (hL : L.Centers) {n l : ℕ} (h0 : 0 < d) (hd : d ≤ 2 ^ 40) (X : Fin n → Fin d → ℝ) (hX : LcentModerate X)
    (Y : Fin l → Fin d → ℝ) (hY : LcentModerate Y) (i : Fin n) (j : Fin l) :
    ∃ v, rowDot L ((double.rounding ℝ).unitRow L X i) ((double.rounding ℝ).unitRow L Y j) = .fin v ∧
      |v - Spec.cosine (X i) (Y j)| ≤ 4 * (d + 2) * u := by
  have hE := rowErr_nonneg (hd.trans (by norm_num : 2 ^ 40 ≤ 2 ^ 46))
  have hE1 := rowErr_le_half h0 hd
  obtain ⟨y, hy, hyf, hye⟩ := unitRow_near L hL hd X hX i
  obtain ⟨z, hz, hzf, hze⟩ := unitRow_near L hL hd Y hY j
  obtain ⟨v, hv, -, hve⟩ := hL.dot_abs y z hd hyf hzf (fun f => (entry_le (by linarith) (unit_abs_le X i f) (hye f)).trans (by norm_num))
    (fun f => (entry_le (by linarith) (unit_abs_le Y j f) (hze f)).trans (by norm_num))
  obtain ⟨h1, h2⟩ := inner_near hE hye hze (unit_prod_le X Y i j)
  rw [Cent.unit_dot] at h1
  refine ⟨v, ?_, ?_⟩
  · unfold rowDot
    rw [hy, hz]
    exact hv
  · have h3 := mul_le_mul_of_nonneg_left h2 (pow_sub_one_nonneg d)
    have h4 := cos_total h0 hd
    have h5 := tiny_le hd
    have b1 := abs_le.1 hve
    have b2 := abs_le.1 h1
    have hu := u_pos
    rw [abs_le]
    constructor <;> nlinarith

/-! ### Affinities -/

/-- One entry of the local centroid as computed. -/
theorem unit_mean_near (L : CosLib ℝ) (hL : L.Centers) (s : List ℝ) (h1 : 0 < s.length) (hk : s.length ≤ 2 ^ 40) (hf : ∀ x ∈ s, double.round x = .fin x)
    (hs : ∀ x ∈ s, |x| ≤ 3 / 2) :
    ∃ c, (double.rounding ℝ).div (L.sum (s.map .fin)) ((double.rounding ℝ).ofNat s.length) = .fin c ∧ double.round c = .fin c ∧
      |c - s.sum / s.length| ≤ ((1 + u) ^ s.length - 1) * ((s.map (|·|)).sum / s.length) + 2 ^ (-1000 : ℤ) := by
  have hu := u_pos
  have hkR : (0 : ℝ) < s.length := by exact_mod_cast h1
  obtain ⟨M, hM⟩ : ∃ M, M = (s.map (|·|)).sum := ⟨_, rfl⟩
  have hM0 : 0 ≤ M := hM ▸ List.sum_nonneg fun x hx => by
    obtain ⟨y, -, rfl⟩ := List.mem_map.1 hx
    exact abs_nonneg y
  have hMk : M ≤ s.length * (3 / 2) := by
    have := List.sum_le_card_nsmul (s.map (|·|)) (3 / 2) (fun x hx => by
      obtain ⟨y, hy, rfl⟩ := List.mem_map.1 hx
      exact hs y hy)
    rwa [List.length_map, nsmul_eq_mul, ← hM] at this
  have hpow : (1 + u) ^ (s.length - 1) ≤ 2 := by
    have := pow_sub_one_le' (k := s.length - 1) ((Nat.sub_le _ _).trans hk)
    have h2 := mu_le (m := s.length - 1) ((Nat.sub_le _ _).trans hk)
    linarith [show (1 / 2 ^ 13 : ℝ) ≤ 1 / 100 by norm_num]
  have hk40 : (s.length : ℝ) ≤ 2 ^ 40 := by exact_mod_cast hk
  obtain ⟨v, hv, -, hve⟩ := Ieee.sum_error double (hL.sum_some_order (s.map .fin) (fun a ha => by
      obtain ⟨x, hx, rfl⟩ := List.mem_map.1 ha
      exact hf x hx)) hf (by
    rw [← hM]
    refine (mul_le_mul hpow hMk hM0 (by norm_num)).trans (double_emax (a := 42) (by norm_num) ?_)
    norm_num
    linarith)
  rw [← hM] at hve ⊢
  have hve' : |v - s.sum| ≤ ((1 + u) ^ (s.length - 1) - 1) * M := hve
  have hsM : |s.sum| ≤ M := by
    rw [hM]
    clear hM hve hve' hv hMk hf hs h1 hk hkR hpow hk40
    induction s with
    | nil => simp
    | cons x s ih =>
      rw [List.sum_cons, List.map_cons, List.sum_cons]
      exact (abs_add_le _ _).trans (add_le_add_right ih _)
  have hvM : |v| ≤ (1 + u) ^ (s.length - 1) * M := by
    have := abs_add_le (v - s.sum) s.sum
    rw [sub_add_cancel] at this
    linarith
  have hvk : |v / s.length| ≤ (1 + u) ^ (s.length - 1) * (M / s.length) := by
    rw [abs_div, abs_of_pos hkR, ← mul_div_assoc]
    exact div_le_div_of_nonneg_right hvM hkR.le
  have hMk' : M / s.length ≤ 3 / 2 := by
    rw [div_le_iff₀ hkR]
    linarith
  have hM0' : 0 ≤ M / s.length := by positivity
  obtain ⟨c, hc, hcf, hce⟩ := round_abs (x := v / s.length) (by
    have h3 : |v / s.length| ≤ 2 * (3 / 2) := hvk.trans (mul_le_mul hpow hMk' hM0' (by norm_num))
    have h4 : (2 : ℝ) ^ (2 : ℤ) ≤ 2 ^ (1000 : ℤ) := two_zpow_le (by norm_num)
    refine le_trans ?_ h4
    norm_num at h3 ⊢
    linarith)
  refine ⟨c, ?_, hcf, ?_⟩
  · rw [hv, div_ofNat v h1 hk]
    exact hc
  · have h5 : |v / s.length - s.sum / s.length| ≤ ((1 + u) ^ (s.length - 1) - 1) * (M / s.length) := by
      rw [← sub_div, abs_div, abs_of_pos hkR, ← mul_div_assoc]
      exact div_le_div_of_nonneg_right hve' hkR.le
    have h6 := mul_le_mul_of_nonneg_left hvk hu.le
    have h7 := abs_sub_le c (v / s.length) (s.sum / s.length)
    have h8 : (1 + u) ^ s.length = (1 + u) ^ (s.length - 1) * (1 + u) := by rw [← pow_succ, Nat.sub_add_cancel h1]
    rw [h8]
    refine h7.trans ((add_le_add hce h5).trans ?_)
    have e : ((1 + u) ^ (s.length - 1) * (1 + u) - 1) * (M / s.length) =
        u * ((1 + u) ^ (s.length - 1) * (M / s.length)) + ((1 + u) ^ (s.length - 1) - 1) * (M / s.length) := by ring
    rw [e]
    linarith

/-- The product of a vector with a local centroid whose entries have errors. -/
theorem dot_mean_near (L : CosLib ℝ) (hL : L.Centers) (hd : d ≤ 2 ^ 40) {y c m M : Fin d → ℝ} {g T : ℝ} (hg : 0 ≤ g) (hyf : ∀ f, double.round (y f) = .fin (y f))
    (hcf : ∀ f, double.round (c f) = .fin (c f)) (hy : ∀ f, |y f| ≤ 3 / 2) (hc : ∀ f, |c f| ≤ 2) (hm : ∀ f, |m f| ≤ M f)
    (hcm : ∀ f, |c f - m f| ≤ g * M f + 2 ^ (-1000 : ℤ)) (hT : ∑ f, |y f| * M f ≤ T) :
    ∃ v, L.dot (List.ofFn (fun f => .fin (y f))) (List.ofFn (fun f => .fin (c f))) = .fin v ∧
      |v - ∑ f, y f * m f| ≤ ((1 + u) ^ d - 1) * ((1 + g) * T + 2 * (d * 2 ^ (-1000 : ℤ))) + g * T + 3 * (d * 2 ^ (-1000 : ℤ)) := by
  obtain ⟨v, hv, -, hve⟩ := hL.dot_abs y c hd hyf hcf (fun f => (hy f).trans (by norm_num)) hc
  obtain ⟨t, ht⟩ : ∃ t : ℝ, t = 2 ^ (-1000 : ℤ) := ⟨_, rfl⟩
  rw [← ht] at hcm hve ⊢
  have ht0 : 0 < t := ht ▸ zpow_pos two_pos _
  have hsum : ∀ c : ℝ, ∑ _f : Fin d, c = d * c := fun c => by rw [Finset.sum_const, Finset.card_univ, Fintype.card_fin, nsmul_eq_mul]
  have h1 : |∑ f, y f * c f - ∑ f, y f * m f| ≤ g * T + 2 * (d * t) := by
    rw [← Finset.sum_sub_distrib]
    have : ∀ f, |y f * c f - y f * m f| ≤ g * (|y f| * M f) + 2 * t := fun f => by
      rw [← mul_sub, abs_mul]
      have := mul_le_mul_of_nonneg_left (hcm f) (abs_nonneg (y f))
      nlinarith [hy f]
    refine (Finset.abs_sum_le_sum_abs _ _).trans ((Finset.sum_le_sum fun f _ => this f).trans ?_)
    rw [Finset.sum_add_distrib, ← Finset.mul_sum, hsum]
    have := mul_le_mul_of_nonneg_left hT hg
    linarith
  have h2 : ∑ f, |y f * c f| ≤ (1 + g) * T + 2 * (d * t) := by
    have : ∀ f, |y f * c f| ≤ (1 + g) * (|y f| * M f) + 2 * t := fun f => by
      rw [abs_mul]
      have h3 : |c f| ≤ (1 + g) * M f + t := by
        have := abs_add_le (c f - m f) (m f)
        rw [sub_add_cancel] at this
        linarith [hcm f, hm f]
      have := mul_le_mul_of_nonneg_left h3 (abs_nonneg (y f))
      nlinarith [hy f]
    refine (Finset.sum_le_sum fun f _ => this f).trans ?_
    rw [Finset.sum_add_distrib, ← Finset.mul_sum, hsum]
    have := mul_le_mul_of_nonneg_left hT (show 0 ≤ 1 + g by linarith)
    linarith
  refine ⟨v, hv, ?_⟩
  have h3 := mul_le_mul_of_nonneg_left h2 (pow_sub_one_nonneg d)
  have b1 := abs_le.1 hve
  have b2 := abs_le.1 h1
  rw [abs_le]
  constructor <;> linarith

/-- The local affinity as computed. -/
theorem aff_near (L : CosLib ℝ) (hL : L.Centers) {l : ℕ} (h0 : 0 < d) (hd : d ≤ 2 ^ 40) (Y : Fin l → Fin d → ℝ) (hY : LcentModerate Y)
    {nn : List (Fin l)} (hnd : nn.Nodup) (hlen : nn.length = k) (h1 : 1 ≤ k) (hk : k ≤ 2 ^ 40) (i : Fin l) :
    ∃ v, (double.rounding ℝ).affinity L Y nn i = .fin v ∧ |v - Cent.meanCosine Y nn.toFinset i| ≤ (4 * (d + 2) + 2 * k) * u := by
  have hu := u_pos
  have hE := rowErr_nonneg (hd.trans (by norm_num : 2 ^ 40 ≤ 2 ^ 46))
  have hE1 := rowErr_le_half h0 hd
  have hkR : (0 : ℝ) < k := by exact_mod_cast h1
  have hcard : nn.toFinset.card = k := by rw [List.toFinset_card_of_nodup hnd, hlen]
  choose y hy hyf hye using unitRow_near L hL hd Y hY
  have hyb : ∀ a f, |y a f| ≤ 3 / 2 := fun a f => entry_le (by linarith) (unit_abs_le Y a f) (hye a f)
  have hg := pow_sub_one_nonneg k
  have hg' := pow_sub_one_le' hk
  have hku := mu_le hk
  obtain ⟨g, hgdef⟩ : ∃ g, g = (1 + u) ^ k - 1 := ⟨_, rfl⟩
  rw [← hgdef] at hg hg'
  have hsmall : (1 / 2 ^ 13 : ℝ) ≤ 1 / 8000 := by norm_num
  have hmean : ∀ f, ∃ c, (double.rounding ℝ).localMean L ((double.rounding ℝ).unitRow L Y) nn f = .fin c ∧ double.round c = .fin c ∧
      |c - (∑ a ∈ nn.toFinset, y a f) / k| ≤ g * ((∑ a ∈ nn.toFinset, |y a f|) / k) + 2 ^ (-1000 : ℤ) := by
    intro f
    obtain ⟨c, hc, hcf, hce⟩ := unit_mean_near L hL (nn.map (fun a => y a f)) (by rw [List.length_map]; omega) (by rw [List.length_map]; omega)
      (fun x hx => by obtain ⟨a, -, rfl⟩ := List.mem_map.1 hx; exact hyf a f) (fun x hx => by obtain ⟨a, -, rfl⟩ := List.mem_map.1 hx; exact hyb a f)
    rw [List.length_map, hlen, List.map_map, ← hgdef] at hce
    refine ⟨c, ?_, hcf, ?_⟩
    · rw [← hc, List.map_map, List.length_map]
      unfold localMean
      rw [funext hy]
      rfl
    · rw [List.sum_toFinset _ hnd, List.sum_toFinset _ hnd]
      exact hce
  choose c hc hcf hce using hmean
  have hMb : ∀ f, (∑ a ∈ nn.toFinset, |y a f|) / k ≤ 3 / 2 := fun f => by
    rw [div_le_iff₀ hkR]
    have := Finset.sum_le_card_nsmul nn.toFinset (fun a => |y a f|) (3 / 2) (fun a _ => hyb a f)
    rw [hcard, nsmul_eq_mul] at this
    linarith
  have hmM : ∀ f, |(∑ a ∈ nn.toFinset, y a f) / k| ≤ (∑ a ∈ nn.toFinset, |y a f|) / k := fun f => by
    rw [abs_div, abs_of_pos hkR]
    exact div_le_div_of_nonneg_right (Finset.abs_sum_le_sum_abs _ _) hkR.le
  have htiny : (2 : ℝ) ^ (-1000 : ℤ) ≤ 1 / 100 := by
    have := tiny_le (d := 1) (by norm_num)
    have h4 := u_le
    rw [Nat.cast_one, one_mul] at this
    exact this.trans (by linarith)
  have hcb : ∀ f, |c f| ≤ 2 := fun f => by
    have h3 := abs_add_le (c f - (∑ a ∈ nn.toFinset, y a f) / k) ((∑ a ∈ nn.toFinset, y a f) / k)
    rw [sub_add_cancel] at h3
    have h4 := mul_le_mul_of_nonneg_left (hMb f) hg
    have := hce f
    have := hmM f
    have := hMb f
    linarith
  have hin := fun a => inner_near hE (hye i) (hye a) (unit_prod_le Y Y i a)
  have hT : ∑ f, |y i f| * ((∑ a ∈ nn.toFinset, |y a f|) / k) ≤ (1 + rowErr d) ^ 2 := by
    have e : ∑ f, |y i f| * ((∑ a ∈ nn.toFinset, |y a f|) / k) = (∑ a ∈ nn.toFinset, ∑ f, |y i f * y a f|) / k := by
      rw [Finset.sum_comm, Finset.sum_div]
      refine Finset.sum_congr rfl fun f _ => ?_
      rw [← mul_div_assoc, Finset.mul_sum]
      congr 1
      exact Finset.sum_congr rfl fun a _ => (abs_mul _ _).symm
    rw [e, div_le_iff₀ hkR]
    have := Finset.sum_le_card_nsmul nn.toFinset (fun a => ∑ f, |y i f * y a f|) _ (fun a _ => (hin a).2)
    rw [hcard, nsmul_eq_mul] at this
    linarith
  have hex : |∑ f, y i f * ((∑ a ∈ nn.toFinset, y a f) / k) - Cent.meanCosine Y nn.toFinset i| ≤ (1 + rowErr d) ^ 2 - 1 := by
    have e : ∑ f, y i f * ((∑ a ∈ nn.toFinset, y a f) / k) = (∑ a ∈ nn.toFinset, ∑ f, y i f * y a f) / k := by
      rw [Finset.sum_comm, Finset.sum_div]
      refine Finset.sum_congr rfl fun f _ => ?_
      rw [← mul_div_assoc, Finset.mul_sum]
    unfold Cent.meanCosine
    rw [e, hcard, ← sub_div, ← Finset.sum_sub_distrib, abs_div, abs_of_pos hkR, div_le_iff₀ hkR]
    have h3 : ∀ a, |∑ f, y i f * y a f - Spec.cosine (Y i) (Y a)| ≤ (1 + rowErr d) ^ 2 - 1 := fun a => by
      have := (hin a).1
      rwa [Cent.unit_dot] at this
    have := Finset.sum_le_card_nsmul nn.toFinset (fun a => |∑ f, y i f * y a f - Spec.cosine (Y i) (Y a)|) _ (fun a _ => h3 a)
    rw [hcard, nsmul_eq_mul] at this
    have h4 := Finset.abs_sum_le_sum_abs (fun a => ∑ f, y i f * y a f - Spec.cosine (Y i) (Y a)) nn.toFinset
    linarith
  obtain ⟨v, hv, hve⟩ := dot_mean_near L hL hd hg (hyf i) hcf (hyb i) hcb hmM hce hT
  refine ⟨v, ?_, ?_⟩
  · unfold affinity rowDot
    rw [hy i, funext hc]
    exact hv
  · have h3 := abs_sub_le v (∑ f, y i f * ((∑ a ∈ nn.toFinset, y a f) / k)) (Cent.meanCosine Y nn.toFinset i)
    refine h3.trans ((add_le_add hve hex).trans ?_)
    have htd := tiny_le hd
    obtain ⟨t, ht⟩ : ∃ t : ℝ, t = d * 2 ^ (-1000 : ℤ) := ⟨_, rfl⟩
    obtain ⟨P, hP⟩ : ∃ P, P = (1 + rowErr d) ^ 2 := ⟨_, rfl⟩
    obtain ⟨q, hq⟩ : ∃ q, q = (1 + u) ^ d - 1 := ⟨_, rfl⟩
    have htot := cos_total h0 hd
    have hq0 := pow_sub_one_nonneg d
    have hq1 := pow_sub_one_le' hd
    have hdu := mu_le hd
    rw [← ht] at htd ⊢
    rw [← hP] at htot ⊢
    rw [← hq] at hq0 hq1 ⊢
    have hqd : (1 + u) ^ d = 1 + q := by rw [hq]; ring
    rw [hqd] at htot
    have hu13 : u ≤ 1 / 8000 := by
      have := mu_le (m := 1) (by norm_num)
      rw [Nat.cast_one, one_mul] at this
      linarith
    have hPq : P * (1 + q) ≤ 5 / 4 := by linarith
    have hg2 : g * (P * (1 + q)) ≤ g * (5 / 4) := mul_le_mul_of_nonneg_left hPq hg
    have hqt : q * t ≤ 1 * (u / 100) := by
      refine mul_le_mul (by linarith) htd ?_ zero_le_one
      rw [ht]
      positivity
    have e : q * ((1 + g) * P + 2 * t) + g * P + 3 * t + (P - 1) = P * (1 + q) - 1 + g * (P * (1 + q)) + 2 * (q * t) + 3 * t := by ring
    rw [e]
    linarith

/-- **C292**: in double precision, `localized_centering(X, Y)` is the cosine similarity minus the mean cosine similarity of the training object to
`kappa` training objects, up to `(8 d + 2 kappa + 21) · 2⁻⁵³`; none of the objects left out is more similar than one of them by more than
`8 (d + 2) · 2⁻⁵³`. -/
theorem C292_any (L : CosLib ℝ) (hL : L.Centers) (o : ArgPart (XR ℝ)) {n l : ℕ} (h0 : 0 < d) (hd : d ≤ 2 ^ 40) (X : Fin n → Fin d → ℝ) (hX : LcentModerate X)
    (Y : Fin l → Fin d → ℝ) (hY : LcentModerate Y) (h1 : 1 ≤ k) (hkl : k ≤ l) (hk : k ≤ 2 ^ 40) :
    ∃ (N : Fin l → Finset (Fin l)) (M : Fin n → Fin l → XR ℝ), (double.rounding ℝ).localizedCentering o L X Y k = .ok M ∧ (∀ j, (N j).card = k) ∧
      (∀ j, ∀ a ∈ N j, ∀ b ∉ N j, Spec.cosine (Y j) (Y b) ≤ Spec.cosine (Y j) (Y a) + 8 * (d + 2) * 2 ^ (-53 : ℤ)) ∧
      ∀ i j, ∃ z, M i j = .fin z ∧
        |z - (Spec.cosine (X i) (Y j) - (∑ a ∈ N j, Spec.cosine (Y j) (Y a)) / k)| ≤ (8 * d + 2 * k + 21) * 2 ^ (-53 : ℤ) := by
  have hu := u_pos
  obtain ⟨nn, hsel, h⟩ := localized_ok (double.rounding ℝ) o L X Y k h1 hkl
  choose s hs hse using sim_near L hL h0 hd Y hY Y hY
  have hN : ∀ j, Spec.IsHood (Spec.nearer "similarity") Finset.univ (s j) k (nn j).toFinset := fun j =>
    Cent.Sel.congr (hsel j) _ (fun b => hs j b) hkl
  refine ⟨fun j => (nn j).toFinset, _, h, fun j => (hN j).card, fun j a ha b hb => ?_, fun i j => ?_⟩
  · have hab := (hN j).best a ha b (Finset.mem_univ b) hb
    unfold Spec.nearer at hab
    rw [if_pos rfl] at hab
    have e1 := abs_le.1 (hse j a)
    have e2 := abs_le.1 (hse j b)
    rw [← u_eq]
    linarith
  · obtain ⟨v, hv, hve⟩ := sim_near L hL h0 hd X hX Y hY i j
    obtain ⟨w, hw, hwe⟩ := aff_near L hL h0 hd Y hY (hsel j).nodup (hsel j).length h1 hk j
    unfold Cent.meanCosine at hwe
    rw [(hN j).card] at hwe
    have hkR : (0 : ℝ) < k := by exact_mod_cast h1
    have hc1 : ∀ {n l : ℕ} (X : Fin n → Fin d → ℝ) (Y : Fin l → Fin d → ℝ) (i : Fin n) (j : Fin l), |Spec.cosine (X i) (Y j)| ≤ 1 := fun X Y i j => by
      rw [← Cent.unit_dot]
      exact (Finset.abs_sum_le_sum_abs _ _).trans (unit_prod_le X Y i j)
    have hm1 : |(∑ a ∈ (nn j).toFinset, Spec.cosine (Y j) (Y a)) / k| ≤ 1 := by
      rw [abs_div, abs_of_pos hkR, div_le_one hkR]
      have := Finset.sum_le_card_nsmul (nn j).toFinset (fun a => |Spec.cosine (Y j) (Y a)|) 1 (fun a _ => hc1 Y Y j a)
      rw [(hN j).card, nsmul_eq_mul, mul_one] at this
      exact (Finset.abs_sum_le_sum_abs _ _).trans this
    have hx1 := hc1 X Y i j
    have hdu := mu_le hd
    have hku := mu_le hk
    have hsmall : (1 / 2 ^ 13 : ℝ) ≤ 1 / 8000 := by norm_num
    have hu13 : u ≤ 1 / 8000 := by
      have := mu_le (m := 1) (by norm_num)
      rw [Nat.cast_one, one_mul] at this
      linarith
    have b1 := abs_le.1 hve
    have b2 := abs_le.1 hwe
    have b3 := abs_le.1 hm1
    have b4 := abs_le.1 hx1
    obtain ⟨z, hz, -, hze⟩ := Ieee.round_bound double (x := v + -w) (b := 5) (abs_le.2 ⟨by linarith, by linarith⟩)
      (double_emin (a := 0) (by norm_num) (by norm_num)) (double_emax (a := 3) (by norm_num) (by norm_num))
    have hze' : |z - (v + -w)| ≤ u * 5 := hze
    have b5 := abs_le.1 hze'
    refine ⟨z, ?_, ?_⟩
    · beta_reduce
      rw [hv, hw]
      exact hz
    · rw [← u_eq, abs_le]
      constructor <;> linarith

/-- **C292**: if the `kappa` most similar training objects are more similar than the others by more than the rounding error of similarities, the result
in double precision differs from the exact result of `localized_centering` by at most `(8 d + 2 kappa + 21) · 2⁻⁵³`. -/
theorem C292 (L : CosLib ℝ) (hL : L.Centers) (o : ArgPart (XR ℝ)) (w : SNN.World ℝ) {n l : ℕ} (h0 : 0 < d) (hd : d ≤ 2 ^ 40) (X : Fin n → Fin d → ℝ)
    (hX : LcentModerate X) (Y : Fin l → Fin d → ℝ) (hY : LcentModerate Y) (h1 : 1 ≤ k) (hkl : k ≤ l) (hk : k ≤ 2 ^ 40)
    (N : Fin l → Finset (Fin l)) (hN : ∀ j, (N j).card = k)
    (hgap : ∀ j, ∀ a ∈ N j, ∀ b ∉ N j, Spec.cosine (Y j) (Y b) + 8 * (d + 2) * 2 ^ (-53 : ℤ) < Spec.cosine (Y j) (Y a)) (nJobs : ℤ) :
    ∃ M M' : Fin n → Fin l → XR ℝ, Cent.localizedCentering w X (some ⟨l, d, Y⟩) k 1 nJobs = .ok ⟨l, M⟩ ∧
      (double.rounding ℝ).localizedCentering o L X Y k = .ok M' ∧
      ∀ i j, ∃ v z, M i j = .fin v ∧ M' i j = .fin z ∧ v = Spec.cosine (X i) (Y j) - (∑ a ∈ N j, Spec.cosine (Y j) (Y a)) / k ∧
        |z - v| ≤ (8 * d + 2 * k + 21) * 2 ^ (-53 : ℤ) := by
  obtain ⟨N', M', h', hN', hb', he'⟩ := C292_any L hL o h0 hd X hX Y hY h1 hkl hk
  obtain ⟨N₀, hN₀, h⟩ := Cent.C87_formula w X Y k h1 hkl 1 zero_le_one
  have hpos : 0 ≤ 8 * ((d : ℝ) + 2) * 2 ^ (-53 : ℤ) := by positivity
  have key : ∀ (j : Fin l) (S : Finset (Fin l)), S.card = k →
      (∀ a ∈ S, ∀ b ∉ S, Spec.cosine (Y j) (Y b) ≤ Spec.cosine (Y j) (Y a) + 8 * (d + 2) * 2 ^ (-53 : ℤ)) → S = N j := by
    intro j S hcard hS
    by_contra hne
    have hsub : ¬ S ⊆ N j := fun hs => hne (Finset.eq_of_subset_of_card_le hs (by rw [hcard, hN j]))
    have hsub' : ¬ N j ⊆ S := fun hs => hne (Finset.eq_of_subset_of_card_le hs (by rw [hcard, hN j])).symm
    obtain ⟨a, haS, haN⟩ := Finset.not_subset.1 hsub
    obtain ⟨b, hbN, hbS⟩ := Finset.not_subset.1 hsub'
    have g1 := hS a haS b hbS
    have g2 := hgap j b hbN a haN
    linarith
  have e1 : N' = N := funext fun j => key j (N' j) (hN' j) (hb' j)
  have e2 : N₀ = N := funext fun j => key j (N₀ j) (hN₀ j).card fun a ha b hb => by
    have := (hN₀ j).best a ha b (Finset.mem_univ b) hb
    unfold Spec.nearer at this
    rw [if_pos rfl] at this
    linarith
  subst e1
  rw [e2] at h
  have hp : ∀ (A : Fin l → ℝ) (j : Fin l), Cent.penalty A 1 j = A j := fun A j => by
    unfold Cent.penalty
    split_ifs <;> simp
  refine ⟨_, M', h nJobs, h', fun i j => ?_⟩
  obtain ⟨z, hz, hze⟩ := he' i j
  refine ⟨_, z, rfl, hz, ?_, ?_⟩
  · rw [hp]
    unfold Cent.meanCosine
    rw [hN' j]
  · rw [hp]
    unfold Cent.meanCosine
    rw [hN' j]
    exact hze

end

/-! ### The assumptions hold -/

theorem CosLib.rounded_centers : CosLib.rounded.Centers where
  toNear := CosLib.rounded_near
  sqrt_zero := by
    change (double.rounding ℝ).up (XR.sqrt (.fin 0)) = _
    have : XR.sqrt (.fin (0 : ℝ)) = .fin 0 := by simp [XR.sqrt]
    rw [this]
    exact (double.rounding ℝ).zero
  dot_abs {d} x y hd hx hy hx2 hy2 := by
    have hu := u_pos
    obtain ⟨t, ht⟩ : ∃ t : ℝ, t = 2 ^ (-1010 : ℤ) := ⟨_, rfl⟩
    have ht0 : 0 < t := ht ▸ zpow_pos two_pos _
    have ht1 : t ≤ 1 := ht ▸ zpow_le_one_of_nonpos₀ one_le_two (by norm_num)
    have hxy : ∀ f, |x f * y f| ≤ 4 := fun f => by
      rw [abs_mul]
      have := mul_le_mul (hx2 f) (hy2 f) (abs_nonneg _) (by norm_num)
      linarith
    have h1000 : (4 : ℝ) ≤ 2 ^ (1000 : ℤ) := le_trans (by norm_num) (two_zpow_le (show (2 : ℤ) ≤ 1000 by norm_num))
    choose p hp hpf hpe using fun f => round_abs' ((hxy f).trans h1000)
    rw [← ht] at hpe
    have hl : List.zipWith (double.rounding ℝ).mul (List.ofFn (fun f => .fin (x f))) (List.ofFn (fun f => .fin (y f))) = (List.ofFn p).map .fin := by
      rw [List.map_ofFn]
      apply List.ext_getElem
      · simp
      · intro i h1 h2
        simp only [List.getElem_zipWith, List.getElem_ofFn, Function.comp_apply]
        exact hp _
    obtain ⟨A, hA⟩ : ∃ A, A = ∑ f, |x f * y f| := ⟨_, rfl⟩
    have hA0 : 0 ≤ A := hA ▸ Finset.sum_nonneg fun f _ => abs_nonneg _
    have hsum : ((List.ofFn p).map (|·|)).sum = ∑ f, |p f| := by
      rw [List.map_ofFn, List.sum_ofFn]
      rfl
    have hc : ∀ c : ℝ, ∑ _f : Fin d, c = d * c := fun c => by rw [Finset.sum_const, Finset.card_univ, Fintype.card_fin, nsmul_eq_mul]
    have hpA : ∑ f, |p f| ≤ (1 + u) * A + d * t := by
      rw [hA, Finset.mul_sum, ← hc, ← Finset.sum_add_distrib]
      refine Finset.sum_le_sum fun f _ => ?_
      have := abs_add_le (p f - x f * y f) (x f * y f)
      rw [sub_add_cancel] at this
      linarith [hpe f]
    have hq : |∑ f, p f - ∑ f, x f * y f| ≤ u * A + d * t := by
      rw [← Finset.sum_sub_distrib, hA, Finset.mul_sum, ← hc, ← Finset.sum_add_distrib]
      exact (Finset.abs_sum_le_sum_abs _ _).trans (Finset.sum_le_sum fun f _ => hpe f)
    have hA4 : A ≤ d * 4 := by
      rw [hA, ← hc]
      exact Finset.sum_le_sum fun f _ => hxy f
    have hd40 : (d : ℝ) ≤ 2 ^ 40 := by exact_mod_cast hd
    have hpow : (1 + u) ^ (d - 1) ≤ 2 := by
      have := pow_sub_one_le' (k := d - 1) ((Nat.sub_le _ _).trans hd)
      have h2 := mu_le (m := d - 1) ((Nat.sub_le _ _).trans hd)
      linarith [show (1 / 2 ^ 13 : ℝ) ≤ 1 / 100 by norm_num]
    have hp0 : 0 ≤ ∑ f, |p f| := Finset.sum_nonneg fun f _ => abs_nonneg _
    have hpb : ∑ f, |p f| ≤ 2 ^ 44 := by
      have h1 : (d : ℝ) * t ≤ d * 1 := mul_le_mul_of_nonneg_left ht1 (Nat.cast_nonneg _)
      have h2 : (1 + u) * A ≤ 2 * A := mul_le_mul_of_nonneg_right (by linarith [u_le]) hA0
      have : (2 : ℝ) ^ 44 = 16 * 2 ^ 40 := by norm_num
      linarith
    have hS := sums_foldl (double.rounding ℝ) ((List.ofFn p).map .fin) (fun a ha => by
      obtain ⟨z, hz, rfl⟩ := List.mem_map.1 ha
      obtain ⟨f, rfl⟩ := (List.mem_ofFn' _ _).1 hz
      exact hpf f)
    obtain ⟨v, hv, hvf, hve⟩ := Ieee.sum_error double hS (fun z hz => by obtain ⟨f, rfl⟩ := (List.mem_ofFn' _ _).1 hz; exact hpf f) (by
      rw [hsum, List.length_ofFn]
      refine (mul_le_mul hpow hpb hp0 (by norm_num)).trans (double_emax (a := 45) (by norm_num) ?_)
      norm_num)
    rw [hsum, List.length_ofFn, List.sum_ofFn] at hve
    refine ⟨v, ?_, hvf, ?_⟩
    · change List.foldl _ _ (List.zipWith _ _ _) = _
      rw [hl]
      exact hv
    rw [← hA]
    have hve' : |v - ∑ f, p f| ≤ ((1 + u) ^ (d - 1) - 1) * ∑ f, |p f| := hve
    rcases Nat.eq_zero_or_pos d with rfl | hd0
    · simp at hve' hA ⊢
      rw [hve']
    have h1 : (1 + u) ^ d = (1 + u) ^ (d - 1) * (1 + u) := by rw [← pow_succ, Nat.sub_add_cancel hd0]
    have h2 := mul_le_mul_of_nonneg_left hpA (pow_sub_one_nonneg (d - 1))
    have h3 := abs_sub_le v (∑ f, p f) (∑ f, x f * y f)
    have hdt : 0 ≤ (d : ℝ) * t := by positivity
    have h4 : (1 + u) ^ (d - 1) * (d * t) ≤ 2 * (d * t) := mul_le_mul_of_nonneg_right hpow hdt
    have h5 : 2 * (d * t) ≤ d * 2 ^ (-1000 : ℤ) := by
      have : 2 * t ≤ 2 ^ (-1000 : ℤ) := by
        rw [ht, ← zpow_one_add₀ two_ne_zero]
        exact two_zpow_le (by norm_num)
      have := mul_le_mul_of_nonneg_left this (Nat.cast_nonneg (α := ℝ) d)
      linarith
    rw [h1]
    have e : ((1 + u) ^ (d - 1) - 1) * ((1 + u) * A + d * t) + (u * A + d * t) =
        ((1 + u) ^ (d - 1) * (1 + u) - 1) * A + (1 + u) ^ (d - 1) * (d * t) := by ring
    linarith

/-- Three vectors in the plane. -/
def lcentZ : Fin 3 → Fin 2 → ℤ := ![![3, 4], ![4, 3], ![-1, 0]]

theorem intModerate {n d : ℕ} (Z : Fin n → Fin d → ℤ) (h : ∀ i f, |Z i f| ≤ 2 ^ 53) : LcentModerate (fun i f => (Z i f : ℝ)) where
  float i f := Ieee.round_intCast double (h i f) (by decide)
  within i f := by
    by_cases h0 : Z i f = 0
    · exact Or.inl (by rw [h0, Int.cast_zero])
    · right
      have h1 : (1 : ℝ) ≤ |(Z i f : ℝ)| := by
        have : 1 ≤ |Z i f| := Int.one_le_abs h0
        exact_mod_cast this
      have h2 : |(Z i f : ℝ)| ≤ 2 ^ 53 := by exact_mod_cast h i f
      refine ⟨(zpow_le_one_of_nonpos₀ one_le_two (by norm_num)).trans h1, h2.trans ?_⟩
      rw [← zpow_natCast]
      exact two_zpow_le (by norm_num)

/-- The hypotheses of C292 hold for three vectors, one neighbour (each vector is its own nearest neighbour) and queries one of which is zero. -/
example (o : ArgPart (XR ℝ)) (w : SNN.World ℝ) := C292 CosLib.rounded CosLib.rounded_centers o w (d := 2) (k := 1) (by norm_num) (by norm_num)
  (fun i f => ((![![0, 0], ![2, -5]] : Fin 2 → Fin 2 → ℤ) i f : ℝ)) (intModerate _ (by decide)) (fun i f => (lcentZ i f : ℝ)) (intModerate _ (by decide))
  (by norm_num) (by norm_num) (by norm_num) (fun j => {j}) (fun j => rfl) (by
    have hn : ∀ i, Spec.norm (fun f => (lcentZ i f : ℝ)) = ![5, 5, 1] i := by
      intro i
      have h25 : √(25 : ℝ) = 5 := by rw [show (25 : ℝ) = 5 ^ 2 by norm_num, Real.sqrt_sq (by norm_num)]
      fin_cases i <;> simp [Spec.norm, Spec.inner, lcentZ, Fin.sum_univ_two] <;> norm_num [h25]
    intro j a ha b hb
    rw [Finset.mem_singleton] at ha hb
    subst ha
    unfold Spec.cosine
    rw [hn, hn]
    fin_cases a <;> fin_cases b <;> first | exact absurd rfl hb | (simp [Spec.inner, lcentZ, Fin.sum_univ_two]; norm_num))

end HubToolbox.Rounding
