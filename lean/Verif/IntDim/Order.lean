import Verif.IntDim.Props
import Mathlib.Analysis.SpecialFunctions.Pow.Real

/-!
# C237, C238: the two estimators compared; powers of distances
-/

set_option autoImplicit false

namespace HubToolbox.IntDim

open HubToolbox

/-- The mean of the inverses is at least the inverse of the mean. -/
theorem inverse_mean_le {n : ℕ} (hn : 0 < n) (L : Fin n → ℝ) (hL : ∀ i, 0 < L i) :
    1 / ((∑ i, L i) / n) ≤ (∑ i, 1 / L i) / n ∧ (1 / ((∑ i, L i) / n) = (∑ i, 1 / L i) / n ↔ ∀ i j, L i = L j) := by
  have hn' : (0 : ℝ) < n := by exact_mod_cast hn
  haveI : Nonempty (Fin n) := ⟨⟨0, hn⟩⟩
  have hS : 0 < ∑ i, L i := Finset.sum_pos (fun i _ => hL i) Finset.univ_nonempty
  set M : ℝ := (∑ i, L i) / n with hM
  have hMp : 0 < M := div_pos hS hn'
  have ht : ∀ i, 1 / L i - (2 / M - L i / M ^ 2) = (L i - M) ^ 2 / (L i * M ^ 2) := by
    intro i
    have := hL i
    field_simp
    ring
  have htn : ∀ i, 0 ≤ (L i - M) ^ 2 / (L i * M ^ 2) := fun i =>
    div_nonneg (sq_nonneg _) (mul_pos (hL i) (pow_pos hMp 2)).le
  have hsum : (∑ i, 1 / L i) / n - 1 / M = (∑ i, (L i - M) ^ 2 / (L i * M ^ 2)) / n := by
    simp only [← ht, Finset.sum_sub_distrib, Finset.sum_const, Finset.card_univ, Fintype.card_fin, nsmul_eq_mul, ← Finset.sum_div]
    rw [show ∑ i, L i = M * n by rw [hM]; field_simp]
    field_simp
    ring
  have h0 : 0 ≤ ∑ i, (L i - M) ^ 2 / (L i * M ^ 2) := Finset.sum_nonneg fun i _ => htn i
  refine ⟨by have := div_nonneg h0 hn'.le; linarith, ?_⟩
  constructor
  · intro h
    rw [h, sub_self] at hsum
    have hz : ∑ i, (L i - M) ^ 2 / (L i * M ^ 2) = 0 := by
      rcases div_eq_zero_iff.1 hsum.symm with h | h
      · exact h
      · exact absurd h hn'.ne'
    have hz' : ∀ i, L i = M := by
      intro i
      have := (Finset.sum_eq_zero_iff_of_nonneg (fun i _ => htn i)).1 hz i (Finset.mem_univ i)
      rcases div_eq_zero_iff.1 this with h | h
      · exact sub_eq_zero.1 (pow_eq_zero_iff two_ne_zero |>.1 h)
      · exact absurd h (mul_pos (hL i) (pow_pos hMp 2)).ne'
    intro i j
    rw [hz' i, hz' j]
  · intro h
    have hz' : ∀ i, L i = M := by
      intro i
      rw [hM, Finset.sum_congr rfl (fun j _ => h j i), Finset.sum_const, Finset.card_univ, Fintype.card_fin, nsmul_eq_mul]
      field_simp
    have : ∑ i, (L i - M) ^ 2 / (L i * M ^ 2) = 0 := Finset.sum_eq_zero fun i _ => by rw [hz' i, sub_self]; simp
    rw [this, zero_div] at hsum
    linarith

/-- **C237**: the correction of MacKay and Ghahramani never exceeds the estimate of Levina and Bickel, and both are equal exactly if
all points have the same local estimate for each `k ≥ 3` of the range. -/
theorem C237_mackay_le_levina (L : LexSort) {n m : ℕ} (X : Fin n → Fin m → ℝ) (hm : m ≠ 0) (hX : Function.Injective X)
    (T : Fin n → ℕ → ℝ) (hT : ∀ i, Spec.Neighbours X i (T i)) (k1 k2 : ℕ) (h1 : 2 ≤ k1) (h12 : k1 ≤ k2) (h2 : k2 < n)
    (hne : ∀ i, T i 0 < T i (k1 - 1)) (mem mem' : ℤ) :
    ∃ a b : ℝ, intrinsicDimension L X k1 k2 "mackay" "vector" none mem = .ok (.fin a) ∧
      intrinsicDimension L X k1 k2 "levina" "vector" none mem' = .ok (.fin b) ∧ a ≤ b ∧
      (a = b ↔ ∀ k, k1 ≤ k → k ≤ k2 → 3 ≤ k → ∀ i j, Spec.logRatios (T i) k = Spec.logRatios (T j) k) := by
  refine ⟨_, _, C109_formula_partial L X hm hX T hT k1 k2 h1 h12 h2 hne "mackay" (.inr rfl) mem,
    C109_formula_partial L X hm hX T hT k1 k2 h1 h12 h2 hne "levina" (.inl rfl) mem', ?_⟩
  have hn : 0 < n := by omega
  have hn' : (0 : ℝ) < n := by exact_mod_cast hn
  have hw : (0 : ℝ) < (k2 : ℝ) + 1 - k1 := by
    have : (k1 : ℝ) ≤ k2 := by exact_mod_cast h12
    linarith
  have hLR : ∀ k ∈ Finset.Icc k1 k2, ∀ i, 0 < Spec.logRatios (T i) k := by
    intro k hk i
    obtain ⟨hk, hk'⟩ := Finset.mem_Icc.mp hk
    refine logRatios_pos (T i) k (by omega) (neighbours_pos X hX i _ (hT i) 0 (by omega))
      (fun a b hab hb => (hT i).1 a b hab (by omega)) ?_
    exact (hne i).trans_le ((hT i).1 _ _ (by omega) (by omega))
  have hk0 : ∀ k ∈ Finset.Icc k1 k2, (0 : ℝ) ≤ (k : ℝ) - 2 := by
    intro k hk
    have : (2 : ℝ) ≤ k := by exact_mod_cast h1.trans (Finset.mem_Icc.mp hk).1
    linarith
  have eM : Spec.estimate "mackay" T k1 k2 =
      (∑ k ∈ Finset.Icc k1 k2, ((k : ℝ) - 2) * (1 / ((∑ i, Spec.logRatios (T i) k) / n))) / (k2 + 1 - k1) := by
    simp only [Spec.estimate, Spec.mackay, mul_one_div]
    rw [if_neg (by decide)]
  have eL : Spec.estimate "levina" T k1 k2 =
      (∑ k ∈ Finset.Icc k1 k2, ((k : ℝ) - 2) * ((∑ i, 1 / Spec.logRatios (T i) k) / n)) / (k2 + 1 - k1) := by
    simp only [Spec.estimate, Spec.levina, if_true]
    rw [Finset.sum_comm, ← div_div, Finset.sum_div]
    congr 1
    refine Finset.sum_congr rfl fun k _ => ?_
    rw [mul_div_assoc', Finset.mul_sum]
    simp only [mul_one_div]
  have hle : ∀ k ∈ Finset.Icc k1 k2, ((k : ℝ) - 2) * (1 / ((∑ i, Spec.logRatios (T i) k) / n)) ≤
      ((k : ℝ) - 2) * ((∑ i, 1 / Spec.logRatios (T i) k) / n) := fun k hk =>
    mul_le_mul_of_nonneg_left (inverse_mean_le hn _ (hLR k hk)).1 (hk0 k hk)
  rw [eM, eL]
  refine ⟨div_le_div_of_nonneg_right (Finset.sum_le_sum hle) hw.le, ?_⟩
  rw [div_left_inj' hw.ne', Finset.sum_eq_sum_iff_of_le hle]
  constructor
  · intro h k hk hk' h3
    have hmem := Finset.mem_Icc.2 ⟨hk, hk'⟩
    have h3' : (0 : ℝ) < (k : ℝ) - 2 := by
      have : (3 : ℝ) ≤ k := by exact_mod_cast h3
      linarith
    exact (inverse_mean_le hn _ (hLR k hmem)).2.1 (mul_left_cancel₀ h3'.ne' (h k hmem))
  · intro h k hk
    obtain ⟨hk1, hk2⟩ := Finset.mem_Icc.1 hk
    by_cases h3 : 3 ≤ k
    · rw [(inverse_mean_le hn _ (hLR k hk)).2.2 (h k hk1 hk2 h3)]
    · have : k = 2 := by omega
      subst this
      norm_num

theorem neighbours_pow {n m m' : ℕ} (X : Fin n → Fin m → ℝ) (Y : Fin n → Fin m' → ℝ) (a : ℝ) (ha : 0 < a)
    (hY : ∀ i j, Spec.dist (Y i) (Y j) = Spec.dist (X i) (X j) ^ a) (i : Fin n) (T : ℕ → ℝ) (hT : Spec.Neighbours X i T)
    (h0 : ∀ c, c + 1 < n → 0 ≤ T c) : Spec.Neighbours Y i (fun c => T c ^ a) := by
  refine ⟨fun c d hcd hd => Real.rpow_le_rpow (h0 c (by omega)) (hT.1 c d hcd hd) ha.le, ?_⟩
  have h := congrArg (Multiset.map (fun x : ℝ => x ^ a)) hT.2
  rw [Multiset.map_map, Multiset.map_map] at h
  simp only [hY]
  exact h

/-- **C238**: if the distances of one data set are the powers with exponent `a` of those of another one, then its estimate is the
one of the other divided by `a`. -/
theorem C238_power (L : LexSort) {n m m' : ℕ} (X : Fin n → Fin m → ℝ) (Y : Fin n → Fin m' → ℝ) (hm : m ≠ 0) (hm' : m' ≠ 0)
    (hX : Function.Injective X) (a : ℝ) (ha : 0 < a) (hY : ∀ i j, Spec.dist (Y i) (Y j) = Spec.dist (X i) (X j) ^ a)
    (T : Fin n → ℕ → ℝ) (hT : ∀ i, Spec.Neighbours X i (T i)) (k1 k2 : ℕ) (h1 : 2 ≤ k1) (h12 : k1 ≤ k2) (h2 : k2 < n)
    (hne : ∀ i, T i 0 < T i (k1 - 1)) (estimator : String) (he : estimator = "levina" ∨ estimator = "mackay") (mem mem' : ℤ) :
    ∃ d : ℝ, intrinsicDimension L X k1 k2 estimator "vector" none mem = .ok (.fin d) ∧
      intrinsicDimension L Y k1 k2 estimator "vector" none mem' = .ok (.fin (d / a)) := by
  have hpos : ∀ i c, c + 1 < n → 0 < T i c := fun i c hc => neighbours_pos X hX i _ (hT i) c hc
  have hYi : Function.Injective Y := by
    intro i j hij
    by_contra hne
    have hd : Spec.dist (Y i) (Y j) = 0 := by rw [hij]; simp [Spec.dist]
    rw [hY] at hd
    have hp : 0 < Spec.dist (X i) (X j) := by
      have hf : ∃ f, X i f ≠ X j f := by
        by_contra hc
        push Not at hc
        exact hne (hX (funext hc))
      obtain ⟨f, hf⟩ := hf
      unfold Spec.dist
      refine Real.sqrt_pos.2 (Finset.sum_pos' (fun f _ => sq_nonneg _) ⟨f, Finset.mem_univ f, ?_⟩)
      exact sq_pos_of_ne_zero (sub_ne_zero.2 hf)
    exact absurd hd (Real.rpow_pos_of_pos hp a).ne'
  refine ⟨_, C109_formula_partial L X hm hX T hT k1 k2 h1 h12 h2 hne estimator he mem, ?_⟩
  rw [C109_formula_partial L Y hm' hYi (fun i c => T i c ^ a)
    (fun i => neighbours_pow X Y a ha hY i _ (hT i) (fun c hc => (hpos i c hc).le)) k1 k2 h1 h12 h2
    (fun i => Real.rpow_lt_rpow (hpos i 0 (by omega)).le (hne i) ha) estimator he mem']
  have hLR : ∀ i, ∀ k ∈ Finset.Icc k1 k2, Spec.logRatios (fun c => T i c ^ a) k = a * Spec.logRatios (T i) k := by
    intro i k hk
    obtain ⟨hk1, hk2⟩ := Finset.mem_Icc.1 hk
    unfold Spec.logRatios
    rw [Finset.mul_sum]
    refine Finset.sum_congr rfl fun j hj => ?_
    have hj := Finset.mem_range.1 hj
    have p1 := hpos i (k - 1) (by omega)
    have p2 := hpos i j (by omega)
    rw [← Real.div_rpow p1.le p2.le, Real.log_rpow (div_pos p1 p2)]
  congr 2
  unfold Spec.estimate
  split_ifs
  · unfold Spec.levina
    rw [div_right_comm _ _ a, Finset.sum_div _ _ a]
    congr 1
    refine Finset.sum_congr rfl fun i _ => ?_
    rw [Finset.sum_div]
    refine Finset.sum_congr rfl fun k hk => ?_
    rw [hLR i k hk, div_div, mul_comm a]
  · unfold Spec.mackay
    rw [div_right_comm _ _ a, Finset.sum_div _ _ a]
    congr 1
    refine Finset.sum_congr rfl fun k hk => ?_
    rw [Finset.sum_congr rfl (fun i _ => hLR i k hk), ← Finset.mul_sum, mul_div_assoc, div_div, mul_comm a]

/-! ### Examples -/

/-- `C237_mackay_le_levina` applies to four points on a line. -/
noncomputable example (L : LexSort) :=
  C237_mackay_le_levina L line4 one_ne_zero line4_injective line4T line4_neighbours 3 3 (by norm_num) le_rfl (by norm_num)
    line4_different 5000 5000

/-- Four points in space with the square roots of the distances of `line4`. -/
noncomputable def steps4 : Fin 4 → Fin 3 → ℝ := ![![0, 0, 0], ![1, 0, 0], ![1, 3, 0], ![1, 3, √90]]

theorem steps4_dist (i j : Fin 4) : Spec.dist (steps4 i) (steps4 j) = Spec.dist (line4 i) (line4 j) ^ (1 / 2 : ℝ) := by
  rw [line4_dist, ← Real.sqrt_eq_rpow]
  unfold Spec.dist
  congr 1
  have h90 : √90 ^ 2 = (90 : ℝ) := Real.sq_sqrt (by norm_num)
  fin_cases i <;> fin_cases j <;> simp [steps4, line4, Fin.sum_univ_three, h90] <;> norm_num

/-- These points have twice the dimension: the hypotheses of `C238_power` hold for them. -/
example (L : LexSort) : ∃ d : ℝ, intrinsicDimension L line4 (3 : ℕ) (3 : ℕ) "mackay" "vector" none 5000 = .ok (.fin d) ∧
    intrinsicDimension L steps4 (3 : ℕ) (3 : ℕ) "mackay" "vector" none 5000 = .ok (.fin (d / (1 / 2))) :=
  C238_power L line4 steps4 one_ne_zero three_ne_zero line4_injective (1 / 2) (by norm_num) steps4_dist line4T
    line4_neighbours 3 3 (by norm_num) le_rfl (by norm_num) line4_different "mackay" (.inr rfl) 5000 5000

end HubToolbox.IntDim
