import Verif.IntDim.Order

/-!
# C311: the intrinsic dimension under measurement errors
-/

set_option autoImplicit false

namespace HubToolbox.IntDim

open HubToolbox

/-- Sorted distances exist. -/
theorem exists_neighbours {n m : ℕ} (Y : Fin n → Fin m → ℝ) (i : Fin n) : ∃ T, Spec.Neighbours Y i T := by
  set s : Multiset ℝ := (Finset.univ.erase i).val.map fun j => Spec.dist (Y i) (Y j) with hs
  have hl : (s.sort (· ≤ ·)).length = n - 1 := by
    rw [Multiset.length_sort, hs, Multiset.card_map, Finset.card_val, Finset.card_erase_of_mem (Finset.mem_univ i), Finset.card_univ, Fintype.card_fin]
  have hsorted : (s.sort (· ≤ ·)).Pairwise (· ≤ ·) := Multiset.pairwise_sort s (· ≤ ·)
  refine ⟨fun c => (s.sort (· ≤ ·)).getD c 0, fun a b hab hb => ?_, ?_⟩
  · have ha' : a < (s.sort (· ≤ ·)).length := by omega
    have hb' : b < (s.sort (· ≤ ·)).length := by omega
    simp only [List.getD_eq_getElem _ _ ha', List.getD_eq_getElem _ _ hb']
    rcases hab.lt_or_eq with h | h
    · exact List.pairwise_iff_getElem.1 hsorted a b ha' hb' h
    · subst h
      exact le_rfl
  · have e : (s.sort (· ≤ ·) : Multiset ℝ) = s := Multiset.sort_eq s (· ≤ ·)
    rw [← hs]
    conv_rhs => rw [← e]
    rw [← Multiset.coe_range, Multiset.map_coe, Multiset.coe_eq_coe]
    refine List.Perm.of_eq (List.ext_getElem (by simp only [List.length_map, List.length_range, hl]) fun c h1 h2 => ?_)
    simp only [List.getElem_map, List.getElem_range, List.getD_eq_getElem _ _ h2]

/-- Counting sorted distances is counting objects. -/
theorem neighbours_count {n m : ℕ} (X : Fin n → Fin m → ℝ) (i : Fin n) (T : ℕ → ℝ) (hT : Spec.Neighbours X i T) (x : ℝ) :
    ((Finset.range (n - 1)).filter fun b => T b ≤ x).card = ((Finset.univ.erase i).filter fun j => Spec.dist (X i) (X j) ≤ x).card := by
  have h := congrArg (Multiset.countP (· ≤ x)) hT.2
  rw [Multiset.countP_map, Multiset.countP_map] at h
  exact h

/-- Sorted distances change by at most the factor by which the distances change. -/
theorem neighbours_factor {n m m' : ℕ} (X : Fin n → Fin m → ℝ) (Y : Fin n → Fin m' → ℝ) (q : ℝ) (hq : 0 ≤ q) (i : Fin n)
    (h : ∀ j, j ≠ i → Spec.dist (Y i) (Y j) ≤ q * Spec.dist (X i) (X j)) (T T' : ℕ → ℝ) (hT : Spec.Neighbours X i T)
    (hT' : Spec.Neighbours Y i T') (a : ℕ) (ha : a + 1 < n) : T' a ≤ q * T a := by
  by_contra hc
  push Not at hc
  have h1 : a + 1 ≤ ((Finset.range (n - 1)).filter fun b => T b ≤ T a).card := by
    rw [← Finset.card_range (a + 1)]
    refine Finset.card_le_card fun b hb => ?_
    rw [Finset.mem_range] at hb
    exact Finset.mem_filter.2 ⟨Finset.mem_range.2 (by omega), hT.1 b a (by omega) ha⟩
  have h2 : ((Finset.range (n - 1)).filter fun b => T' b ≤ q * T a).card ≤ a := by
    conv_rhs => rw [← Finset.card_range a]
    refine Finset.card_le_card fun b hb => ?_
    obtain ⟨hb1, hb2⟩ := Finset.mem_filter.1 hb
    rw [Finset.mem_range] at hb1 ⊢
    by_contra hab
    have := hT'.1 a b (by omega) (by omega)
    linarith
  rw [neighbours_count X i T hT] at h1
  rw [neighbours_count Y i T' hT'] at h2
  have h3 : ((Finset.univ.erase i).filter fun j => Spec.dist (X i) (X j) ≤ T a).card
      ≤ ((Finset.univ.erase i).filter fun j => Spec.dist (Y i) (Y j) ≤ q * T a).card := by
    refine Finset.card_le_card fun j hj => ?_
    obtain ⟨hj1, hj2⟩ := Finset.mem_filter.1 hj
    exact Finset.mem_filter.2 ⟨hj1, (h j (Finset.ne_of_mem_erase hj1)).trans (mul_le_mul_of_nonneg_left hj2 hq)⟩
  omega

/-- The sums of logarithms differ by at most `2 (k - 1) log q`. -/
theorem logRatios_factor (T T' : ℕ → ℝ) (q : ℝ) (hq : 1 ≤ q) (k : ℕ) (hk : 1 ≤ k) (hT : ∀ c, c < k → 0 < T c)
    (hT' : ∀ c, c < k → 0 < T' c) (h : ∀ c, c < k → T' c ≤ q * T c ∧ T c ≤ q * T' c) :
    |Spec.logRatios T' k - Spec.logRatios T k| ≤ 2 * ((k : ℝ) - 1) * Real.log q := by
  have hq0 : (0 : ℝ) < q := by linarith
  have key : ∀ c, c < k → |Real.log (T' c) - Real.log (T c)| ≤ Real.log q := by
    intro c hc
    have a1 := Real.log_le_log (hT' c hc) (h c hc).1
    have a2 := Real.log_le_log (hT c hc) (h c hc).2
    rw [Real.log_mul hq0.ne' (hT c hc).ne'] at a1
    rw [Real.log_mul hq0.ne' (hT' c hc).ne'] at a2
    rw [abs_le]
    constructor <;> linarith
  unfold Spec.logRatios
  rw [← Finset.sum_sub_distrib]
  refine (Finset.abs_sum_le_sum_abs _ _).trans ?_
  have hle : ∀ j ∈ Finset.range (k - 1), |Real.log (T' (k - 1) / T' j) - Real.log (T (k - 1) / T j)| ≤ 2 * Real.log q := by
    intro j hj
    rw [Finset.mem_range] at hj
    rw [Real.log_div (hT' _ (by omega)).ne' (hT' _ (by omega)).ne', Real.log_div (hT _ (by omega)).ne' (hT _ (by omega)).ne']
    have b1 := abs_le.1 (key (k - 1) (by omega))
    have b2 := abs_le.1 (key j (by omega))
    rw [abs_le]
    constructor <;> linarith [b1.1, b1.2, b2.1, b2.2]
  refine (Finset.sum_le_sum hle).trans_eq ?_
  rw [Finset.sum_const, Finset.card_range, nsmul_eq_mul, Nat.cast_sub hk]
  push_cast
  ring

/-- Both estimators are monotone in the sums of logarithms, and inversely proportional to them. -/
theorem estimate_le {n : ℕ} (T T' : Fin n → ℕ → ℝ) (k1 k2 : ℕ) (h1 : 2 ≤ k1) (h12 : k1 ≤ k2) (c : ℝ) (hc : 0 < c)
    (hT : ∀ i k, k1 ≤ k → k ≤ k2 → 0 < Spec.logRatios (T i) k)
    (h : ∀ i k, k1 ≤ k → k ≤ k2 → c * Spec.logRatios (T i) k ≤ Spec.logRatios (T' i) k) (e : String) :
    Spec.estimate e T' k1 k2 ≤ Spec.estimate e T k1 k2 / c := by
  have hw : (0 : ℝ) < (k2 : ℝ) + 1 - k1 := by
    have : (k1 : ℝ) ≤ k2 := by exact_mod_cast h12
    linarith
  have hk0 : ∀ k ∈ Finset.Icc k1 k2, (0 : ℝ) ≤ (k : ℝ) - 2 := by
    intro k hk
    have : ((2 : ℕ) : ℝ) ≤ k := by exact_mod_cast h1.trans (Finset.mem_Icc.1 hk).1
    push_cast at this
    linarith
  unfold Spec.estimate
  split_ifs
  · unfold Spec.levina
    rw [div_right_comm _ _ c, Finset.sum_div _ _ c]
    refine div_le_div_of_nonneg_right (Finset.sum_le_sum fun i _ => ?_) (mul_nonneg (Nat.cast_nonneg n) hw.le)
    rw [Finset.sum_div]
    refine Finset.sum_le_sum fun k hk => ?_
    obtain ⟨a1, a2⟩ := Finset.mem_Icc.1 hk
    rw [div_div, mul_comm _ c]
    exact div_le_div_of_nonneg_left (hk0 k hk) (mul_pos hc (hT i k a1 a2)) (h i k a1 a2)
  · unfold Spec.mackay
    rw [div_right_comm _ _ c, Finset.sum_div _ _ c]
    refine div_le_div_of_nonneg_right (Finset.sum_le_sum fun k hk => ?_) hw.le
    obtain ⟨a1, a2⟩ := Finset.mem_Icc.1 hk
    rcases Nat.eq_zero_or_pos n with hn | hn
    · subst hn
      simp
    have : Nonempty (Fin n) := ⟨⟨0, hn⟩⟩
    have hn' : (0 : ℝ) < n := by exact_mod_cast hn
    rw [div_div, mul_comm _ c, ← mul_div_assoc, Finset.mul_sum]
    refine div_le_div_of_nonneg_left (hk0 k hk) ?_ ?_
    · exact div_pos (Finset.sum_pos (fun i _ => mul_pos hc (hT i k a1 a2)) Finset.univ_nonempty) hn'
    · exact div_le_div_of_nonneg_right (Finset.sum_le_sum fun i _ => h i k a1 a2) hn'.le

/-- **C311**: if the distances between two versions of the data agree up to a factor `q`, and `2 (k - 1) log q` is at most a fraction
`ε` of every sum of logarithms of ratios, then the two estimates agree up to the factors `1 + ε` and `1 - ε`. -/
theorem C311_robust (L : LexSort) {n m m' : ℕ} (X : Fin n → Fin m → ℝ) (Y : Fin n → Fin m' → ℝ) (hm : m ≠ 0) (hm' : m' ≠ 0)
    (hX : Function.Injective X) (q : ℝ) (hq : 1 ≤ q)
    (hY : ∀ i j, i ≠ j → Spec.dist (Y i) (Y j) ≤ q * Spec.dist (X i) (X j) ∧ Spec.dist (X i) (X j) ≤ q * Spec.dist (Y i) (Y j))
    (T : Fin n → ℕ → ℝ) (hT : ∀ i, Spec.Neighbours X i (T i)) (k1 k2 : ℕ) (h1 : 2 ≤ k1) (h12 : k1 ≤ k2) (h2 : k2 < n)
    (hne : ∀ i, T i 0 < T i (k1 - 1)) (ε : ℝ) (hε : ε < 1)
    (hs : ∀ i k, k1 ≤ k → k ≤ k2 → 2 * ((k : ℝ) - 1) * Real.log q ≤ ε * Spec.logRatios (T i) k)
    (estimator : String) (he : estimator = "levina" ∨ estimator = "mackay") (mem mem' : ℤ) :
    ∃ d d' : ℝ, intrinsicDimension L X k1 k2 estimator "vector" none mem = .ok (.fin d) ∧
      intrinsicDimension L Y k1 k2 estimator "vector" none mem' = .ok (.fin d') ∧ d / (1 + ε) ≤ d' ∧ d' ≤ d / (1 - ε) := by
  have hq0 : (0 : ℝ) ≤ q := by linarith
  have hYi : Function.Injective Y := by
    intro i j hij
    by_contra hn
    have hd : Spec.dist (Y i) (Y j) = 0 := by rw [hij]; simp [Spec.dist]
    have hp : 0 < Spec.dist (X i) (X j) := dist_pos fun h => hn (hX h)
    have := (hY i j hn).2
    rw [hd, mul_zero] at this
    linarith
  choose T' hT' using fun i => exists_neighbours Y i
  have hp : ∀ i c, c + 1 < n → 0 < T i c := fun i c hc => neighbours_pos X hX i _ (hT i) c hc
  have hp' : ∀ i c, c + 1 < n → 0 < T' i c := fun i c hc => neighbours_pos Y hYi i _ (hT' i) c hc
  have hf : ∀ i c, c + 1 < n → T' i c ≤ q * T i c ∧ T i c ≤ q * T' i c := fun i c hc =>
    ⟨neighbours_factor X Y q hq0 i (fun j hj => (hY i j hj.symm).1) _ _ (hT i) (hT' i) c hc,
      neighbours_factor Y X q hq0 i (fun j hj => (hY i j hj.symm).2) _ _ (hT' i) (hT i) c hc⟩
  have hLR : ∀ i k, k1 ≤ k → k ≤ k2 → 0 < Spec.logRatios (T i) k := by
    intro i k hk hk'
    refine logRatios_pos (T i) k (by omega) (hp i 0 (by omega)) (fun a b hab hb => (hT i).1 a b hab (by omega)) ?_
    exact (hne i).trans_le ((hT i).1 _ _ (by omega) (by omega))
  have hd : ∀ i k, k1 ≤ k → k ≤ k2 → (1 - ε) * Spec.logRatios (T i) k ≤ Spec.logRatios (T' i) k ∧
      Spec.logRatios (T' i) k ≤ (1 + ε) * Spec.logRatios (T i) k := by
    intro i k hk hk'
    have b := abs_le.1 ((logRatios_factor (T i) (T' i) q hq k (by omega) (fun c hc => hp i c (by omega))
      (fun c hc => hp' i c (by omega)) fun c hc => hf i c (by omega)).trans (hs i k hk hk'))
    constructor <;> linarith [b.1, b.2]
  have hLR' : ∀ i k, k1 ≤ k → k ≤ k2 → 0 < Spec.logRatios (T' i) k := fun i k hk hk' =>
    (mul_pos (by linarith) (hLR i k hk hk')).trans_le (hd i k hk hk').1
  have hε0 : 0 ≤ ε := by
    have i0 : Fin n := ⟨0, by omega⟩
    have := hs i0 k1 le_rfl h12
    have hl := Real.log_nonneg hq
    have hk : (0 : ℝ) ≤ (k1 : ℝ) - 1 := by
      have : ((2 : ℕ) : ℝ) ≤ k1 := by exact_mod_cast h1
      push_cast at this
      linarith
    have : 0 ≤ ε * Spec.logRatios (T i0) k1 := (mul_nonneg (mul_nonneg zero_le_two hk) hl).trans this
    by_contra hc
    push Not at hc
    have := mul_neg_of_neg_of_pos hc (hLR i0 k1 le_rfl h12)
    linarith
  have hne' : ∀ i, T' i 0 < T' i (k1 - 1) := by
    intro i
    refine lt_of_le_of_ne ((hT' i).1 _ _ (by omega) (by omega)) fun heq => ?_
    have h0 : Spec.logRatios (T' i) k1 = 0 := by
      unfold Spec.logRatios
      refine Finset.sum_eq_zero fun j hj => ?_
      rw [Finset.mem_range] at hj
      have e1 := (hT' i).1 0 j (by omega) (by omega)
      have e2 := (hT' i).1 j (k1 - 1) (by omega) (by omega)
      have e3 : T' i (k1 - 1) = T' i j := le_antisymm (heq ▸ e1) e2
      rw [e3, div_self (hp' i j (by omega)).ne', Real.log_one]
    exact (hLR' i k1 le_rfl h12).ne' h0
  refine ⟨_, _, C109_formula_partial L X hm hX T hT k1 k2 h1 h12 h2 hne estimator he mem,
    C109_formula_partial L Y hm' hYi T' hT' k1 k2 h1 h12 h2 hne' estimator he mem', ?_, ?_⟩
  · have := estimate_le T' T k1 k2 h1 h12 (1 / (1 + ε)) (by positivity) hLR' (fun i k hk hk' => by
      rw [one_div, inv_mul_le_iff₀ (by linarith)]
      exact (hd i k hk hk').2) estimator
    rw [div_le_iff₀ (by linarith)]
    rwa [div_div_eq_mul_div, div_one] at this
  · exact estimate_le T T' k1 k2 h1 h12 (1 - ε) (by linarith) hLR (fun i k hk hk' => (hd i k hk hk').1) estimator

/-! ### Example -/

/-- `line4` with an error at the last point. -/
def moved4 : Fin 4 → Fin 1 → ℝ := ![![0], ![1], ![10], ![101]]

theorem moved4_dist (i j : Fin 4) : Spec.dist (moved4 i) (moved4 j) = |moved4 i 0 - moved4 j 0| := by
  unfold Spec.dist
  rw [Fin.sum_univ_one, Real.sqrt_sq_eq_abs]

theorem moved4_upTo (i j : Fin 4) (_ : i ≠ j) :
    Spec.dist (moved4 i) (moved4 j) ≤ 91 / 90 * Spec.dist (line4 i) (line4 j) ∧
      Spec.dist (line4 i) (line4 j) ≤ 91 / 90 * Spec.dist (moved4 i) (moved4 j) := by
  rw [moved4_dist, line4_dist]
  fin_cases i <;> fin_cases j <;> simp [moved4, line4, abs_of_nonneg, abs_of_nonpos] <;> norm_num

/-- A logarithm from below. -/
theorem log_ge (x : ℝ) (hx : 0 < x) : 1 - 1 / x ≤ Real.log x := by
  have := Real.one_sub_inv_le_log_of_pos hx
  rwa [one_div]

theorem line4_sums (i : Fin 4) : (11 / 100 : ℝ) ≤ Spec.logRatios (line4T i) 3 := by
  have hlr : Spec.logRatios (line4T i) 3 = Real.log (line4T i 2 / line4T i 0) + Real.log (line4T i 2 / line4T i 1) := by
    unfold Spec.logRatios
    rw [Finset.sum_range_succ, Finset.sum_range_one]
  have hv : line4T 0 0 = 1 ∧ line4T 0 1 = 10 ∧ line4T 0 2 = 100 ∧ line4T 1 0 = 1 ∧ line4T 1 1 = 9 ∧ line4T 1 2 = 99 ∧
      line4T 2 0 = 9 ∧ line4T 2 1 = 10 ∧ line4T 2 2 = 90 ∧ line4T 3 0 = 90 ∧ line4T 3 1 = 99 ∧ line4T 3 2 = 100 :=
    ⟨rfl, rfl, rfl, rfl, rfl, rfl, rfl, rfl, rfl, rfl, rfl, rfl⟩
  obtain ⟨a1, a2, a3, b1, b2, b3, c1, c2, c3, d1, d2, d3⟩ := hv
  rw [hlr]
  have key : ∀ x y : ℝ, 0 < x → 0 < y → 11 / 100 ≤ (1 - 1 / x) + (1 - 1 / y) → 11 / 100 ≤ Real.log x + Real.log y :=
    fun x y hx hy h => h.trans (add_le_add (log_ge x hx) (log_ge y hy))
  fin_cases i
  · show _ ≤ Real.log (line4T 0 2 / line4T 0 0) + Real.log (line4T 0 2 / line4T 0 1)
    rw [a1, a2, a3]
    refine key _ _ (by norm_num) (by norm_num) (by norm_num)
  · show _ ≤ Real.log (line4T 1 2 / line4T 1 0) + Real.log (line4T 1 2 / line4T 1 1)
    rw [b1, b2, b3]
    refine key _ _ (by norm_num) (by norm_num) (by norm_num)
  · show _ ≤ Real.log (line4T 2 2 / line4T 2 0) + Real.log (line4T 2 2 / line4T 2 1)
    rw [c1, c2, c3]
    refine key _ _ (by norm_num) (by norm_num) (by norm_num)
  · show _ ≤ Real.log (line4T 3 2 / line4T 3 0) + Real.log (line4T 3 2 / line4T 3 1)
    rw [d1, d2, d3]
    refine key _ _ (by norm_num) (by norm_num) (by norm_num)

/-- The hypotheses of `C311_robust` hold for them, with `q = 91 / 90` and `ε = 1 / 2`. -/
example (L : LexSort) : ∃ d d' : ℝ, intrinsicDimension L line4 (3 : ℕ) (3 : ℕ) "levina" "vector" none 5000 = .ok (.fin d) ∧
    intrinsicDimension L moved4 (3 : ℕ) (3 : ℕ) "levina" "vector" none 5000 = .ok (.fin d') ∧ d / (1 + 1 / 2) ≤ d' ∧
      d' ≤ d / (1 - 1 / 2) := by
  refine C311_robust L line4 moved4 one_ne_zero one_ne_zero line4_injective (91 / 90) (by norm_num) moved4_upTo line4T
    line4_neighbours 3 3 (by norm_num) le_rfl (by norm_num) line4_different (1 / 2) (by norm_num) (fun i k hk hk' => ?_) "levina"
    (.inl rfl) 5000 5000
  obtain rfl : k = 3 := le_antisymm hk' hk
  have h1 := line4_sums i
  have h2 := Real.log_le_sub_one_of_pos (show (0 : ℝ) < 91 / 90 by norm_num)
  norm_num at h2 ⊢
  linarith

end HubToolbox.IntDim
