import Verif.Rounding.Cosine
import Verif.Rounding.SumError
import Verif.Dist.Cosine
import Mathlib.Algebra.Order.Field.Basic
import Mathlib.Algebra.BigOperators.Field

/-!
# C209: accuracy of the cosine distance in double precision
-/

set_option autoImplicit false

namespace HubToolbox

namespace Ieee

section
variable {K : Type} [Field K] [LinearOrder K] [FloorRing K] [IsStrictOrderedRing K] (F : Ieee)

/-- Relative error of rounding: numbers which are neither tiny nor huge. -/
theorem round_rel {x : K} (h : x = 0 ∨ 2 ^ F.emin ≤ |x|) (hb : |x| ≤ 2 ^ F.emax) :
    ∃ y, F.round x = .fin y ∧ F.round y = .fin y ∧ |y - x| ≤ F.ulp K * |x| := by
  have hu := F.ulp_pos (K := K)
  have hu' := F.ulp_le (K := K)
  have herr : |F.nearest x - x| ≤ F.ulp K * |x| := by
    rcases h with rfl | h
    · simp [F.nearest_zero]
    · have hx : 0 < |x| := (zpow_pos two_pos _).trans_le h
      have l := Int.zpow_log_le_self (b := 2) (by norm_num) hx
      have u := Int.lt_zpow_succ_log_self (b := 2) (by norm_num) |x|
      push_cast at l u
      have hl : F.emin ≤ Int.log 2 |x| := by
        by_contra hlt
        have h2 : (2 : K) ^ (Int.log 2 |x| + 1) ≤ 2 ^ F.emin := zpow_le_zpow_right₀ one_le_two (by omega)
        exact absurd (u.trans_le h2) (not_lt.2 h)
      refine (F.abs_nearest_sub x).trans ?_
      unfold spacing
      rw [max_eq_left hl]
      have e : (2 : K) ^ (Int.log 2 |x| - ((F.p : ℤ) - 1)) / 2 = F.ulp K * 2 ^ Int.log 2 |x| := by
        unfold ulp
        rw [← zpow_add₀ two_ne_zero, show Int.log 2 |x| - ((F.p : ℤ) - 1) = (-(F.p : ℤ) + Int.log 2 |x|) + 1 by ring,
          zpow_add_one₀ two_ne_zero]
        ring
      rw [e]
      exact mul_le_mul_of_nonneg_left l hu.le
  have hr : F.round x = .fin (F.nearest x) := by
    apply F.round_of_lt
    rw [zpow_add_one₀ two_ne_zero]
    have h1 : |F.nearest x| ≤ |F.nearest x - x| + |x| := by
      have := abs_add_le (F.nearest x - x) x
      simpa using this
    have h2 : F.ulp K * |x| ≤ 1 / 4 * |x| := mul_le_mul_of_nonneg_right hu' (abs_nonneg _)
    have h3 : (0 : K) < 2 ^ F.emax := zpow_pos two_pos _
    linarith
  exact ⟨_, hr, (F.rounding K).idem _ _ hr, herr⟩

end

end Ieee

namespace Rounding

open Ieee (double)

/-- Unit roundoff of float64. -/
noncomputable abbrev u : ℝ := Ieee.double.ulp ℝ

/-- Numbers are zero or between two powers of two. -/
def Within (a b : ℤ) (x : ℝ) : Prop := x = 0 ∨ (2 ^ a ≤ |x| ∧ |x| ≤ 2 ^ b)

/-- What is assumed of the functions of numpy in float64: sums add in some order, square roots are right up to a factor of
`1 + 2 ^ -53`, inner products are computed such that their error is bounded as usual (products rounded and added in some order,
`CosLib.dot_near_of_someOrder`; or fused). -/
structure CosLib.Near (L : CosLib ℝ) : Prop where
  sum_some_order : ∀ l, (∀ a ∈ l, (double.rounding ℝ).Float a) → (double.rounding ℝ).Sums l (L.sum l)
  sqrt_near : ∀ x : ℝ, 2 ^ (-1000 : ℤ) ≤ x → x ≤ 2 ^ (1000 : ℤ) → ∃ z, L.sqrt (.fin x) = .fin z ∧ |z - √x| ≤ u * √x
  dot_near : ∀ {d : ℕ} (x y : Fin d → ℝ), d ≤ 2 ^ 46 → (∀ f, double.round (x f) = .fin (x f)) →
    (∀ f, double.round (y f) = .fin (y f)) → (∀ f, Within (-900) 900 (x f * y f)) →
    ∃ v, L.dot (List.ofFn (fun f => .fin (x f))) (List.ofFn (fun f => .fin (y f))) = .fin v ∧ double.round v = .fin v ∧
      |v - ∑ f, x f * y f| ≤ ((1 + u) ^ d - 1) * ∑ f, |x f * y f|

theorem u_pos : 0 < u := Ieee.double.ulp_pos

theorem u_eq : u = 2 ^ (-53 : ℤ) := rfl

theorem u_le : u ≤ 1 / 4 := Ieee.double.ulp_le

/-- Powers of `1 + u`. -/
theorem pow_le {m : ℕ} (h : (m : ℝ) * u < 1) : (1 + u) ^ m ≤ 1 / (1 - m * u) := by
  have hu := u_pos
  have hu' := u_le
  have h1 : 1 - (m : ℝ) * u ≤ (1 - u) ^ m := by
    have := one_add_mul_le_pow (a := -u) (by linarith) m
    rw [show (1 : ℝ) - u = 1 + -u by ring]
    linarith
  rw [le_div_iff₀ (by linarith)]
  calc (1 + u) ^ m * (1 - m * u) ≤ (1 + u) ^ m * (1 - u) ^ m := mul_le_mul_of_nonneg_left h1 (by positivity)
    _ = (1 - u ^ 2) ^ m := by rw [← mul_pow]; ring
    _ ≤ 1 := pow_le_one₀ (by nlinarith) (by nlinarith)

theorem du_le {d : ℕ} (hd : d ≤ 2 ^ 46) : ((d : ℝ) + 1) * u ≤ 1 / 64 := by
  have h : (d : ℝ) ≤ 2 ^ 46 := by exact_mod_cast hd
  have e : u = 1 / 2 ^ 53 := by rw [u_eq]; norm_num
  rw [e, mul_one_div, div_le_iff₀ (by positivity)]
  have h1 : (2 : ℝ) ^ 46 + 1 ≤ 1 / 64 * 2 ^ 53 := by norm_num
  linarith

/-- The error of products rounded and added in some order. -/
theorem products_error {d : ℕ} (hd : d ≤ 2 ^ 46) (x y : Fin d → ℝ) (h : ∀ f, Within (-900) 900 (x f * y f)) {s : XR ℝ}
    (hs : (double.rounding ℝ).Sums (List.ofFn (fun f => (double.rounding ℝ).mul (.fin (x f)) (.fin (y f)))) s) :
    ∃ v, s = .fin v ∧ double.round v = .fin v ∧ |v - ∑ f, x f * y f| ≤ ((1 + u) ^ d - 1) * ∑ f, |x f * y f| := by
  have hu := u_pos
  have hz : (2 : ℝ) ^ (900 : ℤ) ≤ 2 ^ double.emax := zpow_le_zpow_right₀ one_le_two (by decide)
  have hz' : (2 : ℝ) ^ double.emin ≤ 2 ^ (-900 : ℤ) := zpow_le_zpow_right₀ one_le_two (by decide)
  have hr : ∀ f, ∃ p, double.round (x f * y f) = .fin p ∧ double.round p = .fin p ∧ |p - x f * y f| ≤ u * |x f * y f| := by
    intro f
    apply Ieee.round_rel
    · rcases h f with h | h
      · exact Or.inl h
      · exact Or.inr (hz'.trans h.1)
    · rcases h f with h | h
      · rw [h, abs_zero]; exact (zpow_pos two_pos _).le
      · exact h.2.trans hz
  choose p hp hpf hpe using hr
  have hl : List.ofFn (fun f => (double.rounding ℝ).mul (.fin (x f)) (.fin (y f))) = (List.ofFn p).map .fin := by
    rw [List.map_ofFn]
    congr 1
    funext f
    exact hp f
  rw [hl] at hs
  rcases Nat.eq_zero_or_pos d with rfl | hpos
  · obtain ⟨v, e, hv, hb⟩ := Ieee.sum_error double hs (by simp) (by simp; exact (zpow_pos two_pos _).le)
    exact ⟨v, e, hv, by simpa using hb⟩
  have hsum : ((List.ofFn p).map (|·|)).sum = ∑ f, |p f| := by
    rw [List.map_ofFn, List.sum_ofFn]
    rfl
  have hpa : ∀ f, |p f| ≤ (1 + u) * |x f * y f| := by
    intro f
    have := abs_add_le (p f - x f * y f) (x f * y f)
    rw [sub_add_cancel] at this
    linarith [hpe f]
  set A := ∑ f, |x f * y f| with hA
  have hA0 : 0 ≤ A := Finset.sum_nonneg fun f _ => abs_nonneg _
  have hpA : ∑ f, |p f| ≤ (1 + u) * A := by
    rw [hA, Finset.mul_sum]
    exact Finset.sum_le_sum fun f _ => hpa f
  have hw := du_le hd
  have hdu : (d : ℝ) * u ≤ 1 / 64 := by nlinarith
  have hpow : (1 + u) ^ d ≤ 2 := by
    refine (pow_le (by linarith)).trans ?_
    rw [div_le_iff₀ (by linarith)]
    linarith
  have hsucc : (1 + u) ^ (d - 1) * (1 + u) = (1 + u) ^ d := by
    rw [← pow_succ, Nat.sub_add_cancel hpos]
  have hpm : 0 < (1 + u) ^ (d - 1) := by positivity
  obtain ⟨v, e, hv, hb⟩ := Ieee.sum_error double hs
    (by intro a ha; obtain ⟨f, rfl⟩ := List.mem_ofFn.1 ha; exact hpf f) (by
    rw [hsum, List.length_ofFn]
    have hAb : A ≤ 2 ^ 46 * 2 ^ (900 : ℤ) := by
      have h1 : ∀ f, |x f * y f| ≤ (2 : ℝ) ^ (900 : ℤ) := by
        intro f
        rcases h f with h | h
        · rw [h, abs_zero]; exact (zpow_pos two_pos _).le
        · exact h.2
      have h2 : A ≤ d * (2 : ℝ) ^ (900 : ℤ) := by
        have := Finset.sum_le_card_nsmul Finset.univ (fun f => |x f * y f|) _ (fun f _ => h1 f)
        rwa [Finset.card_univ, Fintype.card_fin, nsmul_eq_mul] at this
      have h3 : (d : ℝ) ≤ 2 ^ 46 := by exact_mod_cast hd
      exact h2.trans (mul_le_mul_of_nonneg_right h3 (zpow_pos two_pos _).le)
    have h4 : (2 : ℝ) * (2 ^ 46 * 2 ^ (900 : ℤ)) ≤ 2 ^ double.emax := by
      have : (2 : ℝ) * (2 ^ 46 * 2 ^ (900 : ℤ)) = 2 ^ (947 : ℤ) := by
        rw [← mul_assoc, ← pow_succ', ← zpow_natCast, ← zpow_add₀ two_ne_zero]; norm_num
      rw [this]
      exact zpow_le_zpow_right₀ one_le_two (by decide)
    calc (1 + u) ^ (d - 1) * ∑ f, |p f| ≤ (1 + u) ^ (d - 1) * ((1 + u) * A) := mul_le_mul_of_nonneg_left hpA hpm.le
      _ = (1 + u) ^ d * A := by rw [← mul_assoc, hsucc]
      _ ≤ 2 * (2 ^ 46 * 2 ^ (900 : ℤ)) := mul_le_mul hpow hAb hA0 (by norm_num)
      _ ≤ _ := h4)
  refine ⟨v, e, hv, ?_⟩
  rw [hsum, List.length_ofFn, List.sum_ofFn] at hb
  have hq : |∑ f, p f - ∑ f, x f * y f| ≤ u * A := by
    rw [← Finset.sum_sub_distrib, hA, Finset.mul_sum]
    exact (Finset.abs_sum_le_sum_abs _ _).trans (Finset.sum_le_sum fun f _ => hpe f)
  have h1 : 1 ≤ (1 + u) ^ (d - 1) := one_le_pow₀ (by linarith)
  have h5 : ((1 + u) ^ (d - 1) - 1) * ∑ f, |p f| ≤ ((1 + u) ^ (d - 1) - 1) * ((1 + u) * A) :=
    mul_le_mul_of_nonneg_left hpA (by linarith)
  calc |v - ∑ f, x f * y f| ≤ |v - ∑ f, p f| + |∑ f, p f - ∑ f, x f * y f| := abs_sub_le _ _ _
    _ ≤ ((1 + u) ^ (d - 1) - 1) * ((1 + u) * A) + u * A := by
        unfold u at *
        linarith
    _ = ((1 + u) ^ d - 1) * A := by rw [← hsucc]; ring

/-- Products rounded and added in some order are accurate enough. -/
theorem CosLib.dot_near_of_someOrder (L : CosLib ℝ) (hL : L.SomeOrder (double.rounding ℝ)) {d : ℕ} (x y : Fin d → ℝ)
    (hd : d ≤ 2 ^ 46) (h : ∀ f, Within (-900) 900 (x f * y f)) :
    ∃ v, L.dot (List.ofFn (fun f => .fin (x f))) (List.ofFn (fun f => .fin (y f))) = .fin v ∧ double.round v = .fin v ∧
      |v - ∑ f, x f * y f| ≤ ((1 + u) ^ d - 1) * ∑ f, |x f * y f| := by
  apply products_error hd x y h
  have := hL (List.ofFn (fun f => .fin (x f))) (List.ofFn (fun f => .fin (y f))) (by simp)
  convert this using 1
  apply List.ext_getElem
  · simp
  · intro i h1 h2
    simp

/-! ### Norms and rows -/

/-- Data for which the bound holds: floats which are zero or neither tiny nor huge, no row is zero. -/
structure CosModerate {n d : ℕ} (X : Fin n → Fin d → ℝ) : Prop where
  float : ∀ i f, double.round (X i f) = .fin (X i f)
  within : ∀ i f, Within (-200) 200 (X i f)
  nonzero : ∀ i, X i ≠ 0

theorem within_mul {a b a' b' : ℤ} {x y : ℝ} (hx : Within a b x) (hy : Within a' b' y) : Within (a + a') (b + b') (x * y) := by
  rcases hx with rfl | ⟨h0, h1⟩
  · exact Or.inl (by simp)
  rcases hy with rfl | ⟨h0', h1'⟩
  · exact Or.inl (by simp)
  right
  rw [abs_mul, zpow_add₀ two_ne_zero, zpow_add₀ two_ne_zero]
  exact ⟨mul_le_mul h0 h0' (zpow_pos two_pos _).le (abs_nonneg _), mul_le_mul h1 h1' (abs_nonneg _) (zpow_pos two_pos _).le⟩

theorem within_mono {a b a' b' : ℤ} {x : ℝ} (hx : Within a b x) (ha : a' ≤ a) (hb : b ≤ b') : Within a' b' x := by
  rcases hx with rfl | ⟨h0, h1⟩
  · exact Or.inl rfl
  · exact Or.inr ⟨(zpow_le_zpow_right₀ one_le_two ha).trans h0, h1.trans (zpow_le_zpow_right₀ one_le_two hb)⟩

/-- The norm of a row as computed. -/
theorem norm_error (L : CosLib ℝ) (hL : L.Near) {d : ℕ} (hd : d ≤ 2 ^ 46) (x : Fin d → ℝ) (hw : ∀ f, Within (-200) 200 (x f))
    (hx : x ≠ 0) :
    ∃ r, L.sqrt (L.sum (List.ofFn (fun f => (double.rounding ℝ).mul (.fin (x f)) (.fin (x f))))) = .fin r ∧
      |r - Spec.vecNorm x| ≤ ((1 + u) ^ (d + 1) - 1) * Spec.vecNorm x := by
  have hu := u_pos
  have hN := Dist.norm2_ne_zero hx
  have hS : Spec.vecNorm x ^ 2 = ∑ f, x f * x f := by
    unfold Spec.vecNorm
    rw [Real.sq_sqrt (Finset.sum_nonneg fun f _ => sq_nonneg _)]
    exact Finset.sum_congr rfl fun f _ => by ring
  have hSa : ∑ f, |x f * x f| = Spec.vecNorm x ^ 2 := by
    rw [hS]
    exact Finset.sum_congr rfl fun f _ => abs_of_nonneg (mul_self_nonneg _)
  have hww : ∀ f, Within (-400) 400 (x f * x f) := fun f => within_mul (hw f) (hw f)
  obtain ⟨s, hs, -, hse⟩ := products_error hd x x (fun f => within_mono (hww f) (by norm_num) (by norm_num))
    (hL.sum_some_order _ (by
      intro a ha
      obtain ⟨f, rfl⟩ := List.mem_ofFn.1 ha
      exact float_up _))
  rw [hs]
  rw [← hS, hSa] at hse
  set N := Spec.vecNorm x with hNdef
  set g := (1 + u) ^ d - 1 with hg
  have hw' := du_le hd
  have hdu : (d : ℝ) * u ≤ 1 / 64 := by nlinarith
  have hg0 : 0 ≤ g := by
    have : 1 ≤ (1 + u) ^ d := one_le_pow₀ (by linarith)
    linarith
  have hg1 : g ≤ 1 / 2 := by
    have h1 : (1 + u) ^ d ≤ 3 / 2 := by
      refine (pow_le (by linarith)).trans ?_
      rw [div_le_iff₀ (by linarith)]
      linarith
    linarith
  have hs0 : 0 < s := by
    have := (abs_le.1 hse).1
    nlinarith [sq_pos_of_pos hN]
  have hsN : s ≤ 2 * N ^ 2 := by
    have := (abs_le.1 hse).2
    nlinarith [sq_pos_of_pos hN]
  have hNb : N ^ 2 ≤ 2 ^ 46 * 2 ^ (400 : ℤ) := by
    have h1 : ∀ f, |x f * x f| ≤ (2 : ℝ) ^ (400 : ℤ) := by
      intro f
      rcases hww f with h | h
      · rw [h, abs_zero]; exact (zpow_pos two_pos _).le
      · exact h.2
    have h2 : N ^ 2 ≤ d * (2 : ℝ) ^ (400 : ℤ) := by
      have := Finset.sum_le_card_nsmul Finset.univ (fun f => |x f * x f|) _ (fun f _ => h1 f)
      rwa [Finset.card_univ, Fintype.card_fin, nsmul_eq_mul, hSa] at this
    have h3 : (d : ℝ) ≤ 2 ^ 46 := by exact_mod_cast hd
    exact h2.trans (mul_le_mul_of_nonneg_right h3 (zpow_pos two_pos _).le)
  have hsb : s ≤ 2 ^ (1000 : ℤ) := by
    have h4 : (2 : ℝ) * (2 ^ 46 * 2 ^ (400 : ℤ)) ≤ 2 ^ (1000 : ℤ) := by
      have : (2 : ℝ) * (2 ^ 46 * 2 ^ (400 : ℤ)) = 2 ^ (447 : ℤ) := by
        rw [← mul_assoc, ← pow_succ', ← zpow_natCast, ← zpow_add₀ two_ne_zero]; norm_num
      rw [this]
      exact zpow_le_zpow_right₀ one_le_two (by norm_num)
    exact (hsN.trans (mul_le_mul_of_nonneg_left hNb (by norm_num))).trans h4
  have hsl : 2 ^ (-1000 : ℤ) ≤ s := by
    obtain ⟨f, hf⟩ := Function.ne_iff.1 hx
    have h1 : (2 : ℝ) ^ (-400 : ℤ) ≤ N ^ 2 := by
      rcases hww f with h | h
      · exact absurd (mul_self_eq_zero.1 h) hf
      · refine h.1.trans ?_
        rw [← hSa]
        exact Finset.single_le_sum (f := fun f => |x f * x f|) (fun f _ => abs_nonneg _) (Finset.mem_univ f)
    have h2 : (2 : ℝ) ^ (-1000 : ℤ) ≤ 1 / 2 * 2 ^ (-400 : ℤ) := by
      have e : (1 : ℝ) / 2 * 2 ^ (-400 : ℤ) = 2 ^ (-401 : ℤ) := by
        rw [one_div, ← zpow_neg_one, ← zpow_add₀ two_ne_zero]; norm_num
      rw [e]
      exact zpow_le_zpow_right₀ one_le_two (by norm_num)
    have := (abs_le.1 hse).1
    nlinarith [sq_pos_of_pos hN]
  obtain ⟨r, hr, hre⟩ := hL.sqrt_near s hsl hsb
  refine ⟨r, hr, ?_⟩
  have hq : |√s - N| ≤ g * N := by
    have hqs : √s ^ 2 = s := Real.sq_sqrt hs0.le
    have hq0 : 0 < √s := Real.sqrt_pos.2 hs0
    have h1 : |√s - N| * (√s + N) ≤ g * N ^ 2 := by
      rw [← abs_of_pos (show 0 < √s + N by linarith), ← abs_mul, show (√s - N) * (√s + N) = s - N ^ 2 by linear_combination hqs]
      exact hse
    have h2 : |√s - N| * N ≤ g * N * N := by
      have := mul_nonneg (abs_nonneg (√s - N)) hq0.le
      nlinarith
    exact le_of_mul_le_mul_right h2 hN
  have hq' : √s ≤ (1 + g) * N := by linarith [(abs_le.1 hq).2]
  calc |r - N| ≤ |r - √s| + |√s - N| := abs_sub_le _ _ _
    _ ≤ u * ((1 + g) * N) + g * N := by
        have := mul_le_mul_of_nonneg_left hq' hu.le
        linarith
    _ = ((1 + u) ^ (d + 1) - 1) * N := by rw [pow_succ, hg]; ring

/-- The relative error of the entries of the normalised rows. -/
noncomputable def rowErr (d : ℕ) : ℝ := (1 + u) / (2 - (1 + u) ^ (d + 1)) - 1

theorem pow_succ_le {d : ℕ} (hd : d ≤ 2 ^ 46) : (1 + u) ^ (d + 1) ≤ 64 / 63 := by
  have h := du_le hd
  have h1 := pow_le (m := d + 1) (by push_cast; linarith)
  push_cast at h1
  refine h1.trans ?_
  rw [div_le_div_iff₀ (by linarith) (by norm_num)]
  linarith

theorem rowErr_nonneg {d : ℕ} (hd : d ≤ 2 ^ 46) : 0 ≤ rowErr d := by
  have hu := u_pos
  have h0 : 1 ≤ (1 + u) ^ (d + 1) := one_le_pow₀ (by linarith)
  have h1 := pow_succ_le hd
  have : 1 ≤ (1 + u) / (2 - (1 + u) ^ (d + 1)) := by
    rw [le_div_iff₀ (by linarith)]
    linarith
  unfold rowErr
  linarith

/-- The rows of `Y` as computed. -/
theorem row_error (L : CosLib ℝ) (hL : L.Near) {n d : ℕ} (hd : d ≤ 2 ^ 46) (X : Fin n → Fin d → ℝ) (hX : CosModerate X) (i : Fin n) :
    ∃ y : Fin d → ℝ, (double.rounding ℝ).cosRow L (fun i f => .fin (X i f)) i = List.ofFn (fun f => .fin (y f)) ∧
      (∀ f, double.round (y f) = .fin (y f)) ∧ (∀ f, Within (-450) 2 (y f)) ∧
      ∀ f, |y f - X i f / Spec.vecNorm (X i)| ≤ rowErr d * |X i f / Spec.vecNorm (X i)| := by
  have hu := u_pos
  have hu4 := u_le
  have hN := Dist.norm2_ne_zero (hX.nonzero i)
  obtain ⟨r, hr, hre⟩ := norm_error L hL hd (X i) (hX.within i) (hX.nonzero i)
  set N := Spec.vecNorm (X i) with hNdef
  set q := (1 + u) ^ (d + 1) with hq
  have hq0 : 1 ≤ q := one_le_pow₀ (by linarith)
  have hq1 := pow_succ_le hd
  rw [← hq] at hq1
  have hr0 : (2 - q) * N ≤ r := by linarith [(abs_le.1 hre).1]
  have hr1 : r ≤ q * N := by linarith [(abs_le.1 hre).2]
  have h2q : 62 / 63 ≤ 2 - q := by linarith
  have hrpos : 0 < r := lt_of_lt_of_le (mul_pos (by linarith) hN) hr0
  have habs : ∀ f, |X i f| ≤ N := by
    intro f
    rw [hNdef]
    unfold Spec.vecNorm
    rw [← Real.sqrt_sq_eq_abs]
    exact Real.sqrt_le_sqrt (Finset.single_le_sum (f := fun f => X i f ^ 2) (fun f _ => sq_nonneg _) (Finset.mem_univ f))
  have hNb : N ≤ 2 ^ (223 : ℤ) := by
    have h1 : ∀ f, X i f ^ 2 ≤ (2 : ℝ) ^ (400 : ℤ) := by
      intro f
      rcases hX.within i f with h | h
      · rw [h]; simp
      · rw [← sq_abs, show (400 : ℤ) = 200 * (2 : ℕ) by norm_num, zpow_mul, zpow_natCast]
        exact pow_le_pow_left₀ (abs_nonneg _) h.2 2
    have h2 : ∑ f, X i f ^ 2 ≤ 2 ^ 46 * 2 ^ (400 : ℤ) := by
      have h2 := Finset.sum_le_card_nsmul Finset.univ (fun f => X i f ^ 2) _ (fun f _ => h1 f)
      rw [Finset.card_univ, Fintype.card_fin, nsmul_eq_mul] at h2
      have h3 : (d : ℝ) ≤ 2 ^ 46 := by exact_mod_cast hd
      exact h2.trans (mul_le_mul_of_nonneg_right h3 (zpow_pos two_pos _).le)
    refine Real.sqrt_le_iff.2 ⟨(zpow_pos two_pos _).le, h2.trans (le_of_eq ?_)⟩
    rw [← zpow_natCast, ← zpow_natCast, ← zpow_mul, ← zpow_add₀ two_ne_zero]
    norm_num
  have hwq : ∀ f, Within (-440) 1 (X i f / r) := by
    intro f
    rcases hX.within i f with h | h
    · exact Or.inl (by rw [h, zero_div])
    · right
      rw [abs_div, abs_of_pos hrpos]
      constructor
      · rw [le_div_iff₀ hrpos]
        have h1 : r ≤ 2 ^ (224 : ℤ) := by
          have : (2 : ℝ) ^ (224 : ℤ) = 2 * 2 ^ (223 : ℤ) := by rw [← zpow_one_add₀ two_ne_zero]; norm_num
          rw [this]
          refine hr1.trans ?_
          have h3 : (0 : ℝ) < 2 ^ (223 : ℤ) := zpow_pos two_pos _
          nlinarith
        calc (2 : ℝ) ^ (-440 : ℤ) * r ≤ 2 ^ (-440 : ℤ) * 2 ^ (224 : ℤ) := mul_le_mul_of_nonneg_left h1 (zpow_pos two_pos _).le
          _ = 2 ^ (-216 : ℤ) := by rw [← zpow_add₀ two_ne_zero]; norm_num
          _ ≤ 2 ^ (-200 : ℤ) := zpow_le_zpow_right₀ one_le_two (by norm_num)
          _ ≤ _ := h.1
      · rw [div_le_iff₀ hrpos, zpow_one]
        have := habs f
        nlinarith
  have hz : (2 : ℝ) ^ (1 : ℤ) ≤ 2 ^ double.emax := zpow_le_zpow_right₀ one_le_two (by decide)
  have hz' : (2 : ℝ) ^ double.emin ≤ 2 ^ (-440 : ℤ) := zpow_le_zpow_right₀ one_le_two (by decide)
  have hex : ∀ f, ∃ p, double.round (X i f / r) = .fin p ∧ double.round p = .fin p ∧ |p - X i f / r| ≤ u * |X i f / r| := by
    intro f
    apply Ieee.round_rel
    · rcases hwq f with h | h
      · exact Or.inl h
      · exact Or.inr (hz'.trans h.1)
    · rcases hwq f with h | h
      · rw [h, abs_zero]; exact (zpow_pos two_pos _).le
      · exact h.2.trans hz
  choose y hy hyf hye using hex
  refine ⟨y, ?_, hyf, ?_, ?_⟩
  · unfold cosRow
    simp only
    rw [hr]
    congr 1
    funext f
    have : XR.div (.fin (X i f)) (.fin r) = .fin (X i f / r) := by simp [XR.div, hrpos.ne']
    unfold div
    rw [this]
    exact hy f
  · intro f
    rcases hwq f with h | ⟨h0, h1⟩
    · left
      have := hye f
      rw [h] at this
      simpa using this
    · right
      have e1 := abs_sub_abs_le_abs_sub (y f) (X i f / r)
      have e2 := abs_sub_abs_le_abs_sub (X i f / r) (y f)
      rw [abs_sub_comm] at e2
      have e3 := hye f
      have e4 : u * |X i f / r| ≤ 1 / 4 * |X i f / r| := mul_le_mul_of_nonneg_right hu4 (abs_nonneg _)
      constructor
      · have : (2 : ℝ) ^ (-450 : ℤ) ≤ 1 / 2 * 2 ^ (-440 : ℤ) := by
          have e : (1 : ℝ) / 2 * 2 ^ (-440 : ℤ) = 2 ^ (-441 : ℤ) := by
            rw [one_div, ← zpow_neg_one, ← zpow_add₀ two_ne_zero]; norm_num
          rw [e]
          exact zpow_le_zpow_right₀ one_le_two (by norm_num)
        linarith
      · rw [zpow_one] at h1
        norm_num
        linarith
  · intro f
    set t := X i f / N with ht
    have h1 : |X i f / r - t| ≤ (q - 1) / (2 - q) * |t| := by
      have e : X i f / r - t = t * ((N - r) / r) := by
        rw [ht]; field_simp
      rw [e, abs_mul, mul_comm]
      apply mul_le_mul_of_nonneg_right _ (abs_nonneg _)
      rw [abs_div, abs_of_pos hrpos, abs_sub_comm, div_le_div_iff₀ hrpos (by linarith)]
      calc |r - N| * (2 - q) ≤ (q - 1) * N * (2 - q) := mul_le_mul_of_nonneg_right hre (by linarith)
        _ = (q - 1) * ((2 - q) * N) := by ring
        _ ≤ (q - 1) * r := mul_le_mul_of_nonneg_left hr0 (by linarith)
    have h2 : |X i f / r| ≤ (1 + (q - 1) / (2 - q)) * |t| := by
      have := abs_add_le (X i f / r - t) t
      rw [sub_add_cancel] at this
      linarith
    calc |y f - t| ≤ |y f - X i f / r| + |X i f / r - t| := abs_sub_le _ _ _
      _ ≤ u * ((1 + (q - 1) / (2 - q)) * |t|) + (q - 1) / (2 - q) * |t| := by
          have := mul_le_mul_of_nonneg_left h2 hu.le
          linarith [hye f]
      _ = rowErr d * |t| := by
          unfold rowErr
          rw [← hq]
          have : (2 - q) ≠ 0 := by linarith
          field_simp
          ring

/-- The error of inner products of normalised rows: `(1 + E) ^ 2 * (1 + u) ^ d - 1`. -/
theorem cos_error (L : CosLib ℝ) (hL : L.Near) {n d : ℕ} (hd : d ≤ 2 ^ 46) (X : Fin n → Fin d → ℝ) (hX : CosModerate X) (i j : Fin n) :
    ∃ t, L.dot ((double.rounding ℝ).cosRow L (fun i f => .fin (X i f)) i)
        ((double.rounding ℝ).cosRow L (fun i f => .fin (X i f)) j) = .fin t ∧ double.round t = .fin t ∧
      |t - Spec.cosAngle (X i) (X j)| ≤ (1 + rowErr d) ^ 2 * (1 + u) ^ d - 1 := by
  have hu := u_pos
  have hE := rowErr_nonneg hd
  obtain ⟨y, hy, hyf, hyw, hye⟩ := row_error L hL hd X hX i
  obtain ⟨z, hz, hzf, hzw, hze⟩ := row_error L hL hd X hX j
  obtain ⟨t, ht, htf, hte⟩ := hL.dot_near y z hd hyf hzf
    (fun f => within_mono (within_mul (hyw f) (hzw f)) (by norm_num) (by norm_num))
  rw [hy, hz]
  refine ⟨t, ht, htf, ?_⟩
  have hNi := Dist.norm2_ne_zero (hX.nonzero i)
  have hNj := Dist.norm2_ne_zero (hX.nonzero j)
  set a : Fin d → ℝ := fun f => X i f / Spec.vecNorm (X i) with ha
  set b : Fin d → ℝ := fun f => X j f / Spec.vecNorm (X j) with hb
  set E := rowErr d with hEdef
  have hcos : Spec.cosAngle (X i) (X j) = ∑ f, a f * b f := by
    unfold Spec.cosAngle
    rw [Finset.sum_div]
    exact Finset.sum_congr rfl fun f _ => by rw [ha, hb]; field_simp
  have hone : ∑ f, |a f * b f| ≤ 1 := by
    have h := Dist.cosine_abs_le (fun f => |X i f|) (fun f => |X j f|)
    unfold Spec.cosAngle at h
    have e1 : ∀ x : Fin d → ℝ, Spec.vecNorm (fun f => |x f|) = Spec.vecNorm x := by
      intro x
      unfold Spec.vecNorm
      simp only [sq_abs]
    rw [e1, e1, Finset.sum_div] at h
    refine le_trans (le_of_eq ?_) ((le_abs_self _).trans h)
    refine Finset.sum_congr rfl fun f _ => ?_
    rw [ha, hb]
    simp only [abs_mul, abs_div, abs_of_pos hNi, abs_of_pos hNj]
    field_simp
  have hprod : ∀ f, |y f * z f - a f * b f| ≤ ((1 + E) ^ 2 - 1) * |a f * b f| := by
    intro f
    have h1 : |y f - a f| ≤ E * |a f| := hye f
    have h2 : |z f - b f| ≤ E * |b f| := hze f
    have e : y f * z f - a f * b f = (y f - a f) * (z f - b f) + (y f - a f) * b f + a f * (z f - b f) := by ring
    rw [e, abs_mul (a f) (b f)]
    have h3 := mul_le_mul h1 h2 (abs_nonneg _) (mul_nonneg hE (abs_nonneg _))
    have h4 := mul_le_mul_of_nonneg_right h1 (abs_nonneg (b f))
    have h5 := mul_le_mul_of_nonneg_left h2 (abs_nonneg (a f))
    rw [← abs_mul] at h3 h4 h5
    have h6 := abs_add_le ((y f - a f) * (z f - b f) + (y f - a f) * b f) (a f * (z f - b f))
    have h7 := abs_add_le ((y f - a f) * (z f - b f)) ((y f - a f) * b f)
    nlinarith
  have hsum : |∑ f, y f * z f - ∑ f, a f * b f| ≤ (1 + E) ^ 2 - 1 := by
    rw [← Finset.sum_sub_distrib]
    refine (Finset.abs_sum_le_sum_abs _ _).trans ((Finset.sum_le_sum fun f _ => hprod f).trans ?_)
    rw [← Finset.mul_sum]
    have : 0 ≤ (1 + E) ^ 2 - 1 := by nlinarith
    nlinarith
  have hyz : ∑ f, |y f * z f| ≤ (1 + E) ^ 2 := by
    have h1 : ∀ f, |y f * z f| ≤ (1 + E) ^ 2 * |a f * b f| := by
      intro f
      have := abs_add_le (y f * z f - a f * b f) (a f * b f)
      rw [sub_add_cancel] at this
      linarith [hprod f]
    refine (Finset.sum_le_sum fun f _ => h1 f).trans ?_
    rw [← Finset.mul_sum]
    have : 0 ≤ (1 + E) ^ 2 := sq_nonneg _
    nlinarith
  have hg : 0 ≤ (1 + u) ^ d - 1 := by
    have : 1 ≤ (1 + u) ^ d := one_le_pow₀ (by linarith)
    linarith
  rw [hcos]
  calc |t - ∑ f, a f * b f| ≤ |t - ∑ f, y f * z f| + |∑ f, y f * z f - ∑ f, a f * b f| := abs_sub_le _ _ _
    _ ≤ ((1 + u) ^ d - 1) * (1 + E) ^ 2 + ((1 + E) ^ 2 - 1) := by
        have := mul_le_mul_of_nonneg_left hyz hg
        linarith
    _ = (1 + E) ^ 2 * (1 + u) ^ d - 1 := by ring

/-- All errors together. -/
theorem total_error {d : ℕ} (h0 : 1 ≤ d) (hd : d ≤ 2 ^ 46) :
    (1 + rowErr d) ^ 2 * (1 + u) ^ d * (1 + u) - 1 + u ≤ 4 * (d + 2) * u := by
  have hu := u_pos
  have hu4 := u_le
  have hw := du_le hd
  have hd1 : (1 : ℝ) ≤ d := by exact_mod_cast h0
  set w := ((d : ℝ) + 1) * u with hwdef
  have huw : 2 * u ≤ w := by rw [hwdef]; nlinarith
  have hq := pow_le (m := d + 1) (by push_cast; rw [← hwdef]; linarith)
  push_cast at hq
  rw [← hwdef] at hq
  have hqd : (1 + u) ^ d * (1 + u) = (1 + u) ^ (d + 1) := (pow_succ _ _).symm
  have h1w : 0 < 1 - w := by linarith
  have h2w : 0 < 1 - 2 * w := by linarith
  have hden : (1 - 2 * w) / (1 - w) ≤ 2 - (1 + u) ^ (d + 1) := by
    have e : (1 - 2 * w) / (1 - w) = 2 - 1 / (1 - w) := by field_simp; ring
    rw [e]
    linarith
  have hdpos : 0 < (1 - 2 * w) / (1 - w) := div_pos h2w h1w
  have hE : 1 + rowErr d ≤ (1 + u) * (1 - w) / (1 - 2 * w) := by
    unfold rowErr
    have := div_le_div_of_nonneg_left (show 0 ≤ 1 + u by linarith) hdpos hden
    have e : (1 + u) / ((1 - 2 * w) / (1 - w)) = (1 + u) * (1 - w) / (1 - 2 * w) := by field_simp
    rw [e] at this
    linarith
  have hE0 := rowErr_nonneg hd
  have hmain : (1 + rowErr d) ^ 2 * ((1 + u) ^ (d + 1)) ≤ ((1 + u) * (1 - w) / (1 - 2 * w)) ^ 2 * (1 / (1 - w)) :=
    mul_le_mul (pow_le_pow_left₀ (by linarith) hE 2) hq (by positivity) (by positivity)
  have e : ((1 + u) * (1 - w) / (1 - 2 * w)) ^ 2 * (1 / (1 - w)) = (1 + u) ^ 2 * (1 - w) / (1 - 2 * w) ^ 2 := by
    field_simp
  rw [e] at hmain
  have hfin : (1 + u) ^ 2 * (1 - w) / (1 - 2 * w) ^ 2 ≤ 1 + 4 * w + 3 * u := by
    rw [div_le_iff₀ (by positivity)]
    nlinarith [mul_pos hu (show 0 < w by linarith), mul_pos hu hu, mul_nonneg (show 0 ≤ w by linarith) (show 0 ≤ 1 / 64 - w by linarith),
      mul_nonneg (show 0 ≤ w by linarith) (show 0 ≤ w - 2 * u by linarith), mul_nonneg hu.le (show 0 ≤ 1 / 64 - w by linarith)]
  rw [mul_assoc, hqd]
  have : 4 * ((d : ℝ) + 2) * u = 4 * w + 4 * u := by rw [hwdef]; ring
  linarith

/-- **C209.** In float64, `cosine_distance` of moderate data with at most `2 ^ 46` features is a matrix of nonnegative numbers
which differ from one minus the cosine of the angle between the vectors by at most `4 (d + 2) 2 ^ -53`, in whatever order sums are
computed. -/
theorem C209 (L : CosLib ℝ) (hL : L.Near) {n d : ℕ} (hd : d ≤ 2 ^ 46) (X : Fin n → Fin d → ℝ) (hX : CosModerate X) (i j : Fin n) :
    ∃ D, (double.rounding ℝ).cosineDistance L (fun i f => .fin (X i f)) i j = .fin D ∧ 0 ≤ D ∧
      |D - (1 - Spec.cosAngle (X i) (X j))| ≤ 4 * (d + 2) * 2 ^ (-53 : ℤ) := by
  have hu := u_pos
  have hd0 : 1 ≤ d := by
    rcases Nat.eq_zero_or_pos d with rfl | h
    · exact absurd (funext fun f => f.elim0) (hX.nonzero i)
    · exact h
  have hcomm : ∀ i j, Spec.cosAngle (X i) (X j) = Spec.cosAngle (X j) (X i) := by
    intro i j
    unfold Spec.cosAngle
    rw [mul_comm]
    congr 1
    exact Finset.sum_congr rfl fun f _ => mul_comm _ _
  have key : ∀ i j, ∃ D, (double.rounding ℝ).cosRaw L (fun i f => .fin (X i f)) i j = .fin D ∧ 0 ≤ D ∧
      |D - (1 - Spec.cosAngle (X i) (X j))| ≤ 4 * (d + 2) * u := by
    intro i j
    obtain ⟨t, ht, htf, hte⟩ := cos_error L hL hd X hX i j
    have htot := total_error hd0 hd
    set c := Spec.cosAngle (X i) (X j) with hc
    set H := (1 + rowErr d) ^ 2 * (1 + u) ^ d - 1 with hH
    have hc1 : |c| ≤ 1 := Dist.cosine_abs_le _ _
    have hw := du_le hd
    have hH2 : H ≤ 1 := by
      have hE := rowErr_nonneg hd
      have : 0 ≤ (1 + rowErr d) ^ 2 * (1 + u) ^ d := by positivity
      nlinarith
    rw [abs_le] at hc1
    have ht1 := abs_le.1 hte
    have h1t : |1 + -t| ≤ 2 + H := by
      rw [abs_le]
      constructor <;> linarith [ht1.1, ht1.2]
    have hone : double.round (1 : ℝ) = .fin 1 := (double.rounding ℝ).one
    have hneg := Ieee.neg_float double htf
    have hbig : (4 : ℝ) ≤ 2 ^ double.emax := by
      have : (2 : ℝ) ^ (2 : ℤ) ≤ 2 ^ double.emax := zpow_le_zpow_right₀ one_le_two (by decide)
      refine le_trans ?_ this
      norm_num
    have hr : double.round (1 + -t) = .fin (double.nearest (1 + -t)) := by
      apply double.round_of_lt
      have h1 := Ieee.abs_add_error double hone hneg
      have h2 := abs_add_le (double.nearest (1 + -t) - (1 + -t)) (1 + -t)
      rw [sub_add_cancel] at h2
      rw [zpow_add_one₀ two_ne_zero]
      have h3 : u * |1 + -t| ≤ 1 / 4 * |1 + -t| := mul_le_mul_of_nonneg_right u_le (abs_nonneg _)
      unfold u at h3
      linarith
    have herr := Ieee.abs_add_error double hone hneg
    set v := double.nearest (1 + -t) with hv
    have hve : |v - (1 - c)| ≤ 4 * (d + 2) * u := by
      have h1 : |(1 + -t) - (1 - c)| ≤ H := by
        rw [show (1 + -t) - (1 - c) = -(t - c) by ring, abs_neg]
        exact hte
      have h2 : u * |1 + -t| ≤ u * (2 + H) := mul_le_mul_of_nonneg_left h1t hu.le
      have h3 := abs_sub_le v (1 + -t) (1 - c)
      have h4 : H + u * (2 + H) = (1 + rowErr d) ^ 2 * (1 + u) ^ d * (1 + u) - 1 + u := by rw [hH]; ring
      unfold u at *
      linarith
    have hsub : (double.rounding ℝ).sub (.fin 1) (L.dot ((double.rounding ℝ).cosRow L (fun i f => .fin (X i f)) i)
        ((double.rounding ℝ).cosRow L (fun i f => .fin (X i f)) j)) = .fin v := by
      rw [ht]
      exact hr
    unfold cosRaw
    simp only
    rw [hsub]
    by_cases hneg : XR.flt (.fin v) (.fin (0 : ℝ))
    · rw [if_pos hneg]
      have hv0 : v < 0 := hneg
      refine ⟨0, rfl, le_rfl, ?_⟩
      rw [abs_le] at hve ⊢
      constructor <;> linarith [hve.1, hve.2]
    · rw [if_neg hneg]
      exact ⟨v, rfl, not_lt.1 hneg, hve⟩
  rcases lt_trichotomy i j with h | rfl | h
  · rw [cosineDistance_off _ _ _ h]
    exact key i j
  · rw [(C208_partial _ _ _ i i).2.1]
    refine ⟨0, rfl, le_rfl, ?_⟩
    rw [Dist.cosine_self (hX.nonzero i)]
    simp
    positivity
  · rw [cosineDistance_symm, cosineDistance_off _ _ _ h, hcomm]
    exact key j i

/-- **C209.** Vectors in the same direction have distances of at most `4 (d + 2) 2 ^ -53`; no distance exceeds two by more. -/
theorem C209_bounds (L : CosLib ℝ) (hL : L.Near) {n d : ℕ} (hd : d ≤ 2 ^ 46) (X : Fin n → Fin d → ℝ) (hX : CosModerate X) (i j : Fin n) :
    ∃ D, (double.rounding ℝ).cosineDistance L (fun i f => .fin (X i f)) i j = .fin D ∧
      D ≤ 2 + 4 * (d + 2) * 2 ^ (-53 : ℤ) ∧
      ((∃ c : ℝ, 0 < c ∧ X j = fun f => c * X i f) → D ≤ 4 * (d + 2) * 2 ^ (-53 : ℤ)) := by
  obtain ⟨D, h, -, he⟩ := C209 L hL hd X hX i j
  have h1 := (abs_le.1 (Dist.cosine_abs_le (X i) (X j))).1
  rw [abs_le] at he
  refine ⟨D, h, by linarith [he.2], ?_⟩
  rintro ⟨c, hc, hj⟩
  have : Spec.cosAngle (X i) (X j) = 1 := by
    have hs := Dist.cosine_self (hX.nonzero i)
    have hN := Dist.norm2_ne_zero (hX.nonzero i)
    have hn : Spec.vecNorm (X j) = c * Spec.vecNorm (X i) := by
      rw [hj]
      unfold Spec.vecNorm
      rw [show (∑ f, (c * X i f) ^ 2) = c ^ 2 * ∑ f, X i f ^ 2 by rw [Finset.mul_sum]; exact Finset.sum_congr rfl fun f _ => by ring,
        Real.sqrt_mul (sq_nonneg c), Real.sqrt_sq hc.le]
    unfold Spec.cosAngle at hs ⊢
    rw [hn, hj, show (∑ f, X i f * (c * X i f)) = c * ∑ f, X i f * X i f by
      rw [Finset.mul_sum]; exact Finset.sum_congr rfl fun f _ => by ring]
    rw [show Spec.vecNorm (X i) * (c * Spec.vecNorm (X i)) = c * (Spec.vecNorm (X i) * Spec.vecNorm (X i)) by ring,
      mul_div_mul_left _ _ hc.ne']
    exact hs
  rw [this] at he
  linarith [he.2]

/-! ### The assumptions hold -/

/-- Correctly rounded square roots, products and sums from left to right. -/
noncomputable def CosLib.rounded : CosLib ℝ where
  sqrt a := (double.rounding ℝ).up (XR.sqrt a)
  sum l := l.foldl (double.rounding ℝ).add (.fin 0)
  dot x y := (List.zipWith (double.rounding ℝ).mul x y).foldl (double.rounding ℝ).add (.fin 0)

theorem CosLib.rounded_near : CosLib.rounded.Near where
  sum_some_order l hl := sums_foldl _ l hl
  sqrt_near x h0 h1 := by
    have hx : 0 < x := (zpow_pos two_pos _).trans_le h0
    have hlow : (2 : ℝ) ^ (-500 : ℤ) ≤ √x := by
      apply Real.le_sqrt_of_sq_le
      rw [← zpow_natCast, ← zpow_mul]
      exact h0
    have hup : √x ≤ 2 ^ (500 : ℤ) :=
      Real.sqrt_le_iff.2 ⟨(zpow_pos two_pos _).le, by rw [← zpow_natCast, ← zpow_mul]; exact h1⟩
    obtain ⟨z, hz, -, he⟩ := Ieee.round_rel double (x := √x)
      (Or.inr ((zpow_le_zpow_right₀ one_le_two (by decide)).trans (hlow.trans (le_abs_self _))))
      (by rw [abs_of_nonneg (Real.sqrt_nonneg _)]; exact hup.trans (zpow_le_zpow_right₀ one_le_two (by decide)))
    rw [abs_of_nonneg (Real.sqrt_nonneg x)] at he
    refine ⟨z, ?_, he⟩
    show (double.rounding ℝ).up (XR.sqrt (.fin x)) = _
    have : XR.sqrt (.fin x) = .fin √x := by simp [XR.sqrt, hx.le, hx.not_gt]
    rw [this]
    exact hz
  dot_near x y hd _ _ hw := CosLib.dot_near_of_someOrder _ (fun x y _ => sums_foldl _ _ (float_products _ x y)) x y hd hw

/-- Three vectors in the plane. -/
def plane3 : Fin 3 → Fin 2 → ℝ := ![![3, 4], ![1, 0], ![-2, 1]]

theorem plane3_moderate : CosModerate plane3 where
  float i f := by
    have h := fun m hm => Ieee.round_grid (K := ℝ) Ieee.double (z := m) (t := 0) hm (by norm_num [Ieee.double])
      (by norm_num [Ieee.double])
    simp only [zpow_zero, mul_one] at h
    have h0 := h 0 (by norm_num [Ieee.double])
    have h1 := h 1 (by norm_num [Ieee.double])
    have h2 := h (-2) (by norm_num [Ieee.double])
    have h3 := h 3 (by norm_num [Ieee.double])
    have h4 := h 4 (by norm_num [Ieee.double])
    push_cast at h0 h1 h2 h3 h4
    fin_cases i <;> fin_cases f <;> first | exact h0 | exact h1 | exact h2 | exact h3 | exact h4
  within i f := by
    have h0 : (2 : ℝ) ^ (-200 : ℤ) ≤ 1 := zpow_le_one_of_nonpos₀ one_le_two (by norm_num)
    have h1 : (4 : ℝ) ≤ 2 ^ (200 : ℤ) := by
      have : (2 : ℝ) ^ (2 : ℤ) ≤ 2 ^ (200 : ℤ) := zpow_le_zpow_right₀ one_le_two (by norm_num)
      refine le_trans ?_ this
      norm_num
    fin_cases i <;> fin_cases f <;>
      first
      | exact Or.inl rfl
      | exact Or.inr ⟨h0.trans (by norm_num [plane3]), le_trans (by norm_num [plane3]) h1⟩
  nonzero i h := by
    have h0 := congrFun h 0
    fin_cases i <;> norm_num [plane3] at h0

/-- The hypotheses of `C209` and `C209_bounds` hold for correctly rounded functions and three vectors in the plane. -/
example := C209 CosLib.rounded CosLib.rounded_near (by norm_num) plane3 plane3_moderate 0 1
example := C209_bounds CosLib.rounded CosLib.rounded_near (by norm_num) plane3 plane3_moderate 0 1

end Rounding

end HubToolbox
