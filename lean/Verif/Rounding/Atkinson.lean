import Verif.Rounding.AtkinsonModel
import Verif.Rounding.IntDimRow
import Verif.Rounding.HubFloat

/-!
# C285: the Atkinson index in double precision
-/

set_option autoImplicit false

namespace HubToolbox.Rounding

open HubToolbox Ieee

/-- What is assumed of numpy: sums in any order, powers within two units of rounding. -/
structure AtkLib.Near (L : AtkLib) : Prop where
  sum_some_order : ∀ l, (∀ a ∈ l, (double.rounding ℝ).Float a) → (double.rounding ℝ).Sums l (L.sum l)
  pow_zero : L.pow (.fin 0) (1 / 4) = .fin 0
  pow_near : ∀ x p : ℝ, 2 ^ (-30 : ℤ) ≤ x → x ≤ 2 ^ (60 : ℤ) → p = 1 / 4 ∨ (p = 4 ∧ x ≤ 2 ^ (14 : ℤ)) →
    ∃ z, L.pow (.fin x) p = .fin z ∧ double.round z = .fin z ∧ |z - x ^ p| ≤ 2 * u * x ^ p

/-- Fourth powers of perturbed numbers. -/
theorem pow4_error {r μ ε : ℝ} (hμ : 0 ≤ μ) (h : |r - μ| ≤ ε * μ) (h0 : 0 ≤ ε) (h1 : ε ≤ 1 / 100) : |r ^ 4 - μ ^ 4| ≤ 5 * ε * μ ^ 4 := by
  have h2 := abs_le.1 h
  have hr : r ≤ (1 + ε) * μ := by linarith
  have hr' : (1 - ε) * μ ≤ r := by linarith
  have hl : 0 ≤ (1 - ε) * μ := mul_nonneg (by linarith) hμ
  have p1 : r ^ 4 ≤ ((1 + ε) * μ) ^ 4 := pow_le_pow_left₀ (hl.trans hr') hr 4
  have p2 : ((1 - ε) * μ) ^ 4 ≤ r ^ 4 := pow_le_pow_left₀ hl hr' 4
  have hμ4 : 0 ≤ μ ^ 4 := by positivity
  have e1 : (1 + ε) ^ 4 ≤ 1 + 5 * ε := by
    have : ε ^ 2 ≤ 1 / 100 * ε := by nlinarith
    have : ε ^ 3 ≤ 1 / 100 * ε := by nlinarith
    have : ε ^ 4 ≤ 1 / 100 * ε := by nlinarith
    nlinarith
  have e2 : 1 - 5 * ε ≤ (1 - ε) ^ 4 := by
    have := one_add_mul_le_pow (a := -ε) (by linarith) 4
    have e : 1 + -ε = 1 - ε := by ring
    rw [e] at this
    push_cast at this
    linarith
  have q1 := mul_le_mul_of_nonneg_right e1 hμ4
  have q2 := mul_le_mul_of_nonneg_right e2 hμ4
  rw [mul_pow] at p1 p2
  rw [abs_le]
  constructor <;> linarith

theorem atkinson_formula (Nk : List ℕ) : HubClass.atkinson Nk = 1 - 1 / (((Nk.sum : ℕ) : ℝ) / Nk.length) *
    ((Nk.map fun v : ℕ => (v : ℝ) ^ (1 / 4 : ℝ)).sum / Nk.length) ^ 4 := by
  rw [HubClass.atkinson_eq, HubClass.sum_map_eq, ← Finset.mul_sum]
  congr 3
  ring

/-- The mean of the fourth roots, and its fourth power. -/
theorem roots_near {Nk : List ℕ} (h : HubSizes Nk) (L : AtkLib) (hL : L.Near) (μ : ℝ) (hμ : μ = (Nk.map fun v : ℕ => (v : ℝ) ^ (1 / 4 : ℝ)).sum / Nk.length) :
    1 / 33554432 ≤ μ ∧ ∃ t, L.pow ((double.rounding ℝ).div (L.sum ((Nk.map (fun v => (double.rounding ℝ).ofNat v)).map (fun v => L.pow v (1 / 4))))
      ((double.rounding ℝ).ofNat Nk.length)) 4 = .fin t ∧ |t - μ ^ 4| ≤ (5 * ((2 * Nk.length + 4) * u) + 3 * u) * μ ^ 4 := by
  have hu := u_pos
  have h50 := u_le_50
  norm_num at h50
  have hn0 : (1 : ℝ) ≤ Nk.length := by exact_mod_cast h.length_pos
  have hn : (Nk.length : ℝ) ≤ 33554432 := by exact_mod_cast h.length_le
  have hnp : (0 : ℝ) < Nk.length := by linarith
  have hv1 : ∀ v : ℕ, 1 ≤ v → (1 : ℝ) ≤ (v : ℝ) ^ (1 / 4 : ℝ) := fun v hv => Real.one_le_rpow (by exact_mod_cast hv) (by norm_num)
  have hv2 : ∀ v ∈ Nk, (v : ℝ) ^ (1 / 4 : ℝ) ≤ 2 ^ 13 := by
    intro v hv
    have h1 : (v : ℝ) ≤ 2 ^ 52 := by exact_mod_cast h.mem_le hv
    have h2 := Real.rpow_le_rpow (Nat.cast_nonneg v) h1 (by norm_num : (0 : ℝ) ≤ 1 / 4)
    refine h2.trans (le_of_eq ?_)
    rw [← Real.rpow_natCast, ← Real.rpow_mul (by norm_num), ← Real.rpow_natCast]
    norm_num
  have hv0 : ∀ v : ℕ, (0 : ℝ) ≤ (v : ℝ) ^ (1 / 4 : ℝ) := fun v => Real.rpow_nonneg (Nat.cast_nonneg v) _
  -- roots
  have hroot : ∀ v ∈ Nk, ∃ y, L.pow ((double.rounding ℝ).ofNat v) (1 / 4) = .fin y ∧ double.round y = .fin y ∧
      |y - (v : ℝ) ^ (1 / 4 : ℝ)| ≤ 2 * u * (v : ℝ) ^ (1 / 4 : ℝ) := by
    intro v hv
    rw [h.ofNat_mem hv]
    rcases Nat.eq_zero_or_pos v with rfl | h1
    · refine ⟨0, by rw [Nat.cast_zero]; exact hL.pow_zero, (double.rounding ℝ).zero, ?_⟩
      rw [Nat.cast_zero, Real.zero_rpow (by norm_num)]
      norm_num
    · have h2 : (1 : ℝ) ≤ v := by exact_mod_cast h1
      have h3 : (v : ℝ) ≤ 2 ^ 52 := by exact_mod_cast h.mem_le hv
      exact hL.pow_near v (1 / 4) ((zpow_le_one_of_nonpos₀ one_le_two (by norm_num)).trans h2) (h3.trans (by norm_num)) (Or.inl rfl)
  choose! y y1 y2 y3 using hroot
  have hlist : (Nk.map (fun v => (double.rounding ℝ).ofNat v)).map (fun v => L.pow v (1 / 4)) = Nk.map fun v => .fin (y v) := by
    rw [List.map_map]
    exact List.map_congr_left fun v hv => y1 v hv
  obtain ⟨r, r1, r2⟩ := mean_error (l := Nk) (y := y) (v := fun v : ℕ => (v : ℝ) ^ (1 / 4 : ℝ)) (δ := 2 * u) (s := L.sum (Nk.map fun v => .fin (y v)))
    (fun v hv => y2 v hv) (fun v hv => ⟨hv0 v, (hv2 v hv).trans (by norm_num), by
      rcases Nat.eq_zero_or_pos v with rfl | h1
      · left
        rw [Nat.cast_zero, Real.zero_rpow (by norm_num)]
      · right
        exact le_trans (by norm_num) (hv1 v h1)⟩)
    (fun v hv => y3 v hv) (by positivity) (by linarith) h.length_pos h.length_le
    (hL.sum_some_order _ (by
      intro a ha
      obtain ⟨v, hv, rfl⟩ := List.mem_map.1 ha
      exact y2 v hv))
  rw [← hμ] at r2
  -- size of the mean of the roots
  have hμlow : 1 / Nk.length ≤ μ := by
    rw [hμ]
    refine div_le_div_of_nonneg_right ?_ hnp.le
    obtain ⟨v, hv, hv'⟩ : ∃ v ∈ Nk, 1 ≤ v := by
      by_contra hc
      push Not at hc
      have : Nk.sum = 0 := List.sum_eq_zero fun v hv => by have := hc v hv; omega
      have := h.sum_pos
      omega
    refine (hv1 v hv').trans ?_
    exact List.single_le_sum (by
      intro x hx
      obtain ⟨v, -, rfl⟩ := List.mem_map.1 hx
      exact hv0 v) _ (List.mem_map.2 ⟨v, hv, rfl⟩)
  have hμup : μ ≤ 2 ^ 13 := by
    rw [hμ, div_le_iff₀ hnp]
    have := List.sum_le_card_nsmul (Nk.map fun v : ℕ => (v : ℝ) ^ (1 / 4 : ℝ)) (2 ^ 13) (by
      intro x hx
      obtain ⟨v, hv, rfl⟩ := List.mem_map.1 hx
      exact hv2 v hv)
    rw [List.length_map, nsmul_eq_mul] at this
    linarith
  have hμ0 : 0 ≤ μ := le_trans (by positivity) hμlow
  set ε := (2 * Nk.length + 4) * u with hε
  have hε0 : 0 ≤ ε := by positivity
  have hε1 : ε ≤ 1 / 1000000 := by
    have : (2 * (Nk.length : ℝ) + 4) * u ≤ (2 * 33554432 + 4) * (1 / 1125899906842624) := mul_le_mul (by linarith) h50 hu.le (by norm_num)
    refine this.trans (by norm_num)
  have r3 : |r - μ| ≤ ε * μ := r2.trans (le_of_eq (by rw [hε]; ring))
  have r4 := abs_le.1 r3
  have hεμ : ε * μ ≤ 1 / 1000000 * μ := mul_le_mul_of_nonneg_right hε1 hμ0
  have hrlow : (2 : ℝ) ^ (-30 : ℤ) ≤ r := by
    have h1 : (1 : ℝ) / 33554432 ≤ 1 / Nk.length := one_div_le_one_div_of_le hnp hn
    norm_num
    linarith
  have hrup : r ≤ (2 : ℝ) ^ (14 : ℤ) := by
    norm_num at hμup ⊢
    linarith
  obtain ⟨t, t1, t2, t3⟩ := hL.pow_near r 4 hrlow (hrup.trans (by norm_num)) (Or.inr ⟨rfl, hrup⟩)
  have e4 : r ^ (4 : ℝ) = r ^ 4 := by
    rw [← Real.rpow_natCast]
    norm_num
  rw [e4] at t3
  have p4 := pow4_error hμ0 r3 hε0 (hε1.trans (by norm_num))
  have hμ4 : 0 ≤ μ ^ 4 := by positivity
  have p5 := abs_le.1 p4
  have p6 : 5 * ε * μ ^ 4 ≤ 1 / 100000 * μ ^ 4 := mul_le_mul_of_nonneg_right (by linarith) hμ4
  have t4 : |t - μ ^ 4| ≤ (5 * ε + 3 * u) * μ ^ 4 := by
    have h1 : 2 * u * r ^ 4 ≤ 2 * u * (3 / 2 * μ ^ 4) := mul_le_mul_of_nonneg_left (by linarith) (by linarith)
    have h2 := abs_le.1 (t3.trans h1)
    rw [abs_le]
    constructor <;> linarith
  exact ⟨(one_div_le_one_div_of_le hnp hn).trans hμlow, t, by rw [hlist, r1, t1], t4⟩

/-- The inverse of the mean. -/
theorem inverse_mean {Nk : List ℕ} (h : HubSizes Nk) (L : AtkLib) (hL : L.Near) (M : ℝ) (hM : M = ((Nk.sum : ℕ) : ℝ) / Nk.length) :
    0 < M ∧ 1 / 2 ^ 53 ≤ 1 / M ∧ ∃ I, (double.rounding ℝ).div (.fin 1) ((double.rounding ℝ).div (L.sum (Nk.map (fun v => (double.rounding ℝ).ofNat v)))
      ((double.rounding ℝ).ofNat Nk.length)) = .fin I ∧ |I - 1 / M| ≤ 3 * u * (1 / M) := by
  have hu := u_pos
  have h50 := u_le_50
  norm_num at h50
  have hn0 : (1 : ℝ) ≤ Nk.length := by exact_mod_cast h.length_pos
  have hn : (Nk.length : ℝ) ≤ 33554432 := by exact_mod_cast h.length_le
  have hnp : (0 : ℝ) < Nk.length := by linarith
  have hsum : L.sum (Nk.map (fun v => (double.rounding ℝ).ofNat v)) = (double.rounding ℝ).ofNat Nk.sum := by
    have e0 : (Nk.map (fun v : ℕ => (v : ℤ))).sum = (Nk.sum : ℤ) := (Nat.cast_list_sum Nk).symm
    have hs := hL.sum_some_order (Nk.map (fun v => (double.rounding ℝ).ofNat v)) (by
      intro a ha
      obtain ⟨v, hv, rfl⟩ := List.mem_map.1 ha
      exact float_up (R := double.rounding ℝ) (.fin (v : ℝ)))
    rw [h.map_ofNat] at hs
    rw [h.map_ofNat, sums_int hs, e0, ofNat_exact (h.sum_le.trans (by norm_num)), Int.cast_natCast]
    rw [List.map_map, List.map_congr_left (g := fun v : ℕ => (v : ℤ)) (fun v _ => by simp), e0]
    have := h.sum_le
    exact_mod_cast this.trans (by norm_num)
  have hs1 : (1 : ℝ) ≤ ((Nk.sum : ℕ) : ℝ) := by exact_mod_cast h.sum_pos
  have hs2 : ((Nk.sum : ℕ) : ℝ) ≤ 4503599627370496 := by exact_mod_cast h.sum_le
  have hMlow : 1 / 33554432 ≤ M := by
    rw [hM, div_le_div_iff₀ (by norm_num) hnp]
    linarith
  have hMup : M ≤ 4503599627370496 := by
    rw [hM, div_le_iff₀ hnp]
    have := mul_le_mul_of_nonneg_left hn0 (show (0 : ℝ) ≤ 4503599627370496 by norm_num)
    linarith
  have hMp : 0 < M := lt_of_lt_of_le (by norm_num) hMlow
  have hmean : (double.rounding ℝ).div (L.sum (Nk.map (fun v => (double.rounding ℝ).ofNat v))) ((double.rounding ℝ).ofNat Nk.length) = double.round M := by
    rw [hM, hsum, quot_nat (h.sum_le.trans (by norm_num)) (h.length_le.trans (by norm_num)) h.length_pos.ne']
  obtain ⟨m, m1, -, m3⟩ := rel_moderate (x := M) (Or.inr (by
    rw [abs_of_pos hMp]
    refine le_trans ?_ hMlow
    norm_num)) (by
    rw [abs_of_pos hMp]
    refine hMup.trans ?_
    norm_num)
  rw [abs_of_pos hMp] at m3
  have m4 := abs_le.1 m3
  have huM : u * M ≤ 1 / 100 * M := mul_le_mul_of_nonneg_right (by linarith) hMp.le
  have hmp : 0 < m := by linarith
  have i0 : |1 / m - 1 / M| ≤ 11 / 10 * u * (1 / M) := by
    have e : 1 / m - 1 / M = (1 / M) * ((M - m) / m) := by
      field_simp
    rw [e, abs_mul, abs_of_pos (by positivity : 0 < 1 / M), mul_comm]
    refine mul_le_mul_of_nonneg_right ?_ (by positivity)
    rw [abs_div, abs_of_pos hmp, div_le_iff₀ hmp, abs_sub_comm]
    refine m3.trans ?_
    have : M ≤ 11 / 10 * m := by linarith
    have := mul_le_mul_of_nonneg_left this hu.le
    linarith
  have hiM : 0 < 1 / M := by positivity
  have i1 := abs_le.1 i0
  have huI : u * (1 / M) ≤ 1 / 100 * (1 / M) := mul_le_mul_of_nonneg_right (by linarith) hiM.le
  have hImlow : 1 / 2 ^ 53 ≤ 1 / M := by
    refine one_div_le_one_div_of_le hMp (hMup.trans (by norm_num))
  have hImup : 1 / M ≤ 33554432 := by
    rw [div_le_iff₀ hMp]
    linarith
  have him : 0 < 1 / m := by positivity
  obtain ⟨I, I1, -, I3⟩ := rel_moderate (x := 1 / m) (Or.inr (by
    rw [abs_of_pos him]
    have : (1 : ℝ) / 2 ^ 100 ≤ 1 / 2 * (1 / 2 ^ 53) := by norm_num
    linarith)) (by
    rw [abs_of_pos him]
    have : (33554432 : ℝ) * 2 ≤ 2 ^ 60 := by norm_num
    linarith)
  rw [abs_of_pos him] at I3
  have I4 := abs_le.1 I3
  have I5 : |I - 1 / M| ≤ 3 * u * (1 / M) := by
    have h1 : u * (1 / m) ≤ u * (3 / 2 * (1 / M)) := mul_le_mul_of_nonneg_left (by linarith) hu.le
    have : 0 ≤ u * (1 / M) := by positivity
    rw [abs_le]
    constructor <;> linarith
  refine ⟨hMp, hImlow, I, ?_, I5⟩
  rw [hmean, m1, ← I1]
  exact congrArg (double.rounding ℝ).up (div_fin 1 hmp.ne')

/-- Accuracy of the Atkinson index. -/
theorem atkinson_near {Nk : List ℕ} (h : HubSizes Nk) (L : AtkLib) (hL : L.Near) :
    ∃ q, (double.rounding ℝ).atkinson L Nk = .fin q ∧ q ≤ 1 ∧ |q - HubClass.atkinson Nk| ≤ (10 * Nk.length + 32) * u := by
  have hu := u_pos
  have h50 := u_le_50
  norm_num at h50
  have hn0 : (1 : ℝ) ≤ Nk.length := by exact_mod_cast h.length_pos
  have hn : (Nk.length : ℝ) ≤ 33554432 := by exact_mod_cast h.length_le
  have hnp : (0 : ℝ) < Nk.length := by linarith
  obtain ⟨μ, hμ⟩ : ∃ μ, μ = (Nk.map fun v : ℕ => (v : ℝ) ^ (1 / 4 : ℝ)).sum / Nk.length := ⟨_, rfl⟩
  obtain ⟨M, hM⟩ : ∃ M, M = ((Nk.sum : ℕ) : ℝ) / Nk.length := ⟨_, rfl⟩
  obtain ⟨hμlow, t, t1, t4⟩ := roots_near h L hL μ hμ
  obtain ⟨hMp, hImlow, I, d, I5⟩ := inverse_mean h L hL M hM
  have hiM : 0 < 1 / M := by positivity
  have hμ0 : 0 ≤ μ := le_trans (by positivity) hμlow
  have hμ4 : 0 ≤ μ ^ 4 := by positivity
  have I6 := abs_le.1 I5
  obtain ⟨ε, hε⟩ : ∃ ε, ε = (2 * Nk.length + 4) * u := ⟨_, rfl⟩
  rw [← hε] at t4
  have hε0 : 0 ≤ ε := by rw [hε]; positivity
  have hε1 : ε ≤ 1 / 1000000 := by
    rw [hε]
    have : (2 * (Nk.length : ℝ) + 4) * u ≤ (2 * 33554432 + 4) * (1 / 1125899906842624) := mul_le_mul (by linarith) h50 hu.le (by norm_num)
    refine this.trans (by norm_num)
  obtain ⟨Q, hQ⟩ : ∃ Q, Q = 1 / M * μ ^ 4 := ⟨_, rfl⟩
  have hQ0 : 0 ≤ Q := by rw [hQ]; positivity
  have hatk : HubClass.atkinson Nk = 1 - Q := by
    rw [hQ, hM, hμ]
    exact atkinson_formula Nk
  have hQ1 : Q ≤ 1 := by
    have := (HubClass.atkinson_range Nk h.sum_pos).1
    rw [hatk] at this
    linarith
  have hIt : |I * t - Q| ≤ (5 * ε + 7 * u) * Q := by
    have e : I * t - Q = I * (t - μ ^ 4) + (I - 1 / M) * μ ^ 4 := by
      rw [hQ]
      ring
    rw [e]
    refine (abs_add_le _ _).trans ?_
    rw [abs_mul, abs_mul, abs_of_nonneg hμ4]
    have hI : |I| ≤ (1 + 3 * u) * (1 / M) := by
      rw [abs_le]
      constructor <;> linarith
    have h1 : |I| * |t - μ ^ 4| ≤ (1 + 3 * u) * (1 / M) * ((5 * ε + 3 * u) * μ ^ 4) :=
      mul_le_mul hI t4 (abs_nonneg _) (by positivity)
    have h2 : |I - 1 / M| * μ ^ 4 ≤ 3 * u * (1 / M) * μ ^ 4 := mul_le_mul_of_nonneg_right I5 hμ4
    have h3 : (1 + 3 * u) * (1 / M) * ((5 * ε + 3 * u) * μ ^ 4) = (5 * ε + 3 * u + (15 * ε + 9 * u) * u) * Q := by
      rw [hQ]
      ring
    have h4 : 3 * u * (1 / M) * μ ^ 4 = 3 * u * Q := by
      rw [hQ]
      ring
    have h5 : (15 * ε + 9 * u) * u ≤ 1 * u := mul_le_mul_of_nonneg_right (by linarith) hu.le
    have h6 : (5 * ε + 3 * u + (15 * ε + 9 * u) * u) * Q ≤ (5 * ε + 4 * u) * Q := mul_le_mul_of_nonneg_right (by linarith) hQ0
    rw [h3] at h1
    rw [h4] at h2
    linarith
  have hQlow : 1 / 2 ^ 200 ≤ Q := by
    have h2 : (1 / 33554432 : ℝ) ^ 4 ≤ μ ^ 4 := pow_le_pow_left₀ (by norm_num) hμlow 4
    have h3 : (1 : ℝ) / 2 ^ 53 * (1 / 33554432) ^ 4 ≤ Q := hQ ▸ mul_le_mul hImlow h2 (by norm_num) hiM.le
    refine le_trans ?_ h3
    norm_num
  have hIt2 := abs_le.1 hIt
  have hc : 5 * ε + 7 * u ≤ 1 / 100 := by linarith
  have hcQ : (5 * ε + 7 * u) * Q ≤ 1 / 100 * Q := mul_le_mul_of_nonneg_right hc hQ0
  have hItlow : 1 / 2 ^ 201 ≤ I * t := by
    have : (1 : ℝ) / 2 ^ 201 = 1 / 2 * (1 / 2 ^ 200) := by norm_num
    linarith
  have hItp : 0 < I * t := lt_of_lt_of_le (by norm_num) hItlow
  obtain ⟨P, P1, P2, P3⟩ := double.round_rel (K := ℝ) (x := I * t) (Or.inr (by
    rw [abs_of_pos hItp]
    refine le_trans ?_ hItlow
    rw [one_div, ← zpow_natCast, ← zpow_neg]
    exact zpow_le_zpow_right₀ one_le_two (by decide))) (by
    rw [abs_of_pos hItp]
    refine small_emax ?_
    have : (2 : ℝ) ≤ 2 ^ 60 := by norm_num
    linarith)
  rw [abs_of_pos hItp] at P3
  have P4 := abs_le.1 (show |P - I * t| ≤ u * (I * t) from P3)
  have P5 : u * (I * t) ≤ 3 / 2 * u * Q := by
    have := mul_le_mul_of_nonneg_left (show I * t ≤ 3 / 2 * Q by linarith) hu.le
    linarith
  have P6 : u * Q ≤ 1 / 100 * Q := mul_le_mul_of_nonneg_right (by linarith) hQ0
  have P7 : |P - Q| ≤ 5 * ε + 9 * u := by
    have h1 : (5 * ε + 9 * u) * Q ≤ (5 * ε + 9 * u) * 1 := mul_le_mul_of_nonneg_left hQ1 (by positivity)
    have h2 : 0 ≤ u * Q := by positivity
    rw [abs_le]
    constructor <;> linarith
  have P8 : 0 ≤ P := by linarith
  have P9 : P ≤ 2 := by linarith
  have hneg : double.round (-P) = .fin (-P) := by
    have := (double.rounding ℝ).neg P
    exact this.trans (by rw [show (double.rounding ℝ).rnd P = .fin P from P2]; rfl)
  obtain ⟨q, q1, q2, q3⟩ := add_float (K := ℝ) double (x := 1) (y := -P) (double.rounding ℝ).one hneg (by
    refine small_emax (le_trans ?_ (show (1 : ℝ) ≤ 2 ^ 60 by norm_num))
    rw [abs_le]
    constructor <;> linarith)
  have q4 : |1 + -P| ≤ 1 := by
    rw [abs_le]
    constructor <;> linarith
  have q5 := abs_le.1 ((show |q - (1 + -P)| ≤ u * |1 + -P| from q3).trans (mul_le_mul_of_nonneg_left q4 hu.le))
  have P10 := abs_le.1 P7
  refine ⟨q, ?_, ?_, ?_⟩
  · unfold Rounding.atkinson
    dsimp only
    have mm : (double.rounding ℝ).mul (.fin I) (.fin t) = .fin P := P1
    rw [t1, d, mm, ← q1]
    exact congrArg (double.rounding ℝ).up (show XR.fin (1 - P) = XR.fin (1 + -P) from congrArg XR.fin (sub_eq_add_neg 1 P))
  · have := (double.rounding ℝ).mono (1 + -P) 1 (by linarith)
    rw [(double.rounding ℝ).one, show (double.rounding ℝ).rnd (1 + -P) = .fin q from q1] at this
    exact this
  · rw [hatk, show (10 * (Nk.length : ℝ) + 32) * u = 5 * ε + 12 * u by rw [hε]; ring, abs_le]
    constructor <;> linarith

end HubToolbox.Rounding
