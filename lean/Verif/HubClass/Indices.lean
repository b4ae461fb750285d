import Verif.HubClass.Examples
import Mathlib.Algebra.Order.BigOperators.Group.Finset
import Mathlib.Algebra.BigOperators.Field

/-!
# How the statistics of the `Hubness` class are related

C205: antihub occurrence ≤ Robin Hood index ≤ Gini index ≤ 1 − k / (m · groupie ratio), and the largest hub alone accounts
for groupie / k − 1 / m of the Robin Hood index. The two inequality indices vanish together, exactly if all objects occur
equally often.
-/

set_option autoImplicit false

namespace HubToolbox.HubClass

open HubToolbox Spec

variable {F : Type} [Field F] [LinearOrder F] [IsStrictOrderedRing F] {m : ℕ}

/-- The deviations above and below the mean cancel: their absolute sum is twice the sum above, and twice that below. -/
theorem sum_abs_dev (x : Fin m → F) (hm : 0 < m) :
    ∑ i, |x i - (∑ j, x j) / m| = 2 * ∑ i, max (x i - (∑ j, x j) / m) 0 ∧
    ∑ i, |x i - (∑ j, x j) / m| = 2 * ∑ i, max ((∑ j, x j) / m - x i) 0 := by
  have hmF : (m : F) ≠ 0 := by exact_mod_cast hm.ne'
  have h0 : ∑ i, (x i - (∑ j, x j) / m) = 0 := by
    rw [Finset.sum_sub_distrib, Finset.sum_const, Finset.card_univ, Fintype.card_fin, nsmul_eq_mul,
      mul_div_cancel₀ _ hmF, sub_self]
  generalize (∑ j, x j) / (m : F) = μ at h0 ⊢
  have h1 : ∀ a : F, |a| = 2 * max a 0 - a := by
    intro a
    rcases le_total a 0 with h | h
    · rw [abs_of_nonpos h, max_eq_right h]; ring
    · rw [abs_of_nonneg h, max_eq_left h]; ring
  have h2 : ∀ i, |x i - μ| = 2 * max (μ - x i) 0 + (x i - μ) := by
    intro i
    rw [abs_sub_comm, h1]; ring
  constructor
  · rw [Finset.sum_congr rfl (fun i _ => h1 (x i - μ)), Finset.sum_sub_distrib, h0, sub_zero, Finset.mul_sum]
  · rw [Finset.sum_congr rfl (fun i _ => h2 i), Finset.sum_add_distrib, h0, add_zero, Finset.mul_sum]

/-- The Robin Hood index never exceeds the Gini index. -/
theorem hoover_le_gini (x : Fin m → F) (hm : 0 < m) (hs : 0 < ∑ i, x i) : hooverIndex x ≤ giniCoefficient x := by
  have hmF : (0 : F) < m := by exact_mod_cast hm
  have hle : ∑ i, |x i - (∑ j, x j) / m| ≤ (∑ i, ∑ j, |x i - x j|) / m := by
    rw [Finset.sum_div Finset.univ (fun i => ∑ j, |x i - x j|)]
    refine Finset.sum_le_sum (fun i _ => ?_)
    have : x i - (∑ j, x j) / m = (∑ j, (x i - x j)) / m := by
      rw [Finset.sum_sub_distrib, Finset.sum_const, Finset.card_univ, Fintype.card_fin, nsmul_eq_mul, sub_div,
        mul_div_cancel_left₀ _ hmF.ne']
    rw [this, abs_div, abs_of_pos hmF]
    exact div_le_div_of_nonneg_right (Finset.abs_sum_le_sum_abs (fun j => x i - x j) Finset.univ) hmF.le
  unfold hooverIndex giniCoefficient
  have e : (∑ i, ∑ j, |x i - x j|) / (m : F) ^ 2 / (2 * ((∑ i, x i) / m)) =
      ((∑ i, ∑ j, |x i - x j|) / m) / (2 * ∑ i, x i) := by
    field_simp
  rw [e]
  exact div_le_div_of_nonneg_right hle (by positivity)

/-- The fraction of zero values never exceeds the Robin Hood index. -/
theorem zeros_le_hoover (x : Fin m → F) (hm : 0 < m) (hs : 0 < ∑ i, x i) :
    ((Finset.univ.filter (fun i => x i = 0)).card : F) / m ≤ hooverIndex x := by
  have hmF : (0 : F) < m := by exact_mod_cast hm
  have h : ((Finset.univ.filter (fun i => x i = 0)).card : F) * ((∑ i, x i) / m) ≤
      ∑ i, max ((∑ j, x j) / m - x i) 0 := by
    rw [← nsmul_eq_mul, ← Finset.sum_const]
    refine le_trans ?_ (Finset.sum_le_sum_of_subset_of_nonneg
      (Finset.filter_subset (fun i => x i = 0) Finset.univ) (fun i _ _ => le_max_right _ _))
    refine Finset.sum_le_sum (fun i hi => ?_)
    rw [(Finset.mem_filter.1 hi).2, sub_zero]
    exact le_max_left _ _
  unfold hooverIndex
  rw [(sum_abs_dev x hm).2, mul_div_mul_left _ _ two_ne_zero, div_le_div_iff₀ hmF hs]
  have := mul_le_mul_of_nonneg_right h hmF.le
  rwa [mul_assoc, div_mul_cancel₀ _ hmF.ne'] at this

/-- One value above the mean contributes its excess. -/
theorem excess_le_hoover (x : Fin m → F) (hm : 0 < m) (hs : 0 < ∑ i, x i) (a : Fin m) :
    x a / (∑ i, x i) ≤ hooverIndex x + 1 / m := by
  have hmF : (0 : F) < m := by exact_mod_cast hm
  have h : x a - (∑ i, x i) / m ≤ ∑ i, max (x i - (∑ j, x j) / m) 0 :=
    (le_max_left _ _).trans (Finset.single_le_sum (f := fun i => max (x i - (∑ j, x j) / m) 0)
      (fun i _ => le_max_right _ _) (Finset.mem_univ a))
  unfold hooverIndex
  rw [(sum_abs_dev x hm).1, mul_div_mul_left _ _ two_ne_zero, ← sub_le_iff_le_add]
  have e : x a / (∑ i, x i) - 1 / m = (x a - (∑ i, x i) / m) / ∑ i, x i := by
    field_simp
  rw [e]
  exact div_le_div_of_nonneg_right h hs.le

/-- Values bounded by `b` keep the Gini index away from one. -/
theorem gini_le_of_bound (x : Fin m → F) (hm : 0 < m) (hs : 0 < ∑ i, x i) (b : F) (h0 : ∀ i, 0 ≤ x i) (hb : ∀ i, x i ≤ b) :
    giniCoefficient x ≤ 1 - (∑ i, x i) / (m * b) := by
  have hmF : (0 : F) < m := by exact_mod_cast hm
  have hbp : 0 < b := by
    by_contra hn
    have : ∑ i, x i ≤ 0 := Finset.sum_nonpos (fun i _ => (hb i).trans (not_lt.1 hn))
    exact absurd hs (not_lt.2 this)
  have h1 : ∀ i j, |x i - x j| ≤ x i + x j - 2 * (x i * x j / b) := by
    intro i j
    have hprod : ∀ i j, x i * x j / b ≤ x i := by
      intro i j
      rw [div_le_iff₀ hbp]
      exact mul_le_mul_of_nonneg_left (hb j) (h0 i)
    rcases le_total (x i) (x j) with h | h
    · rw [abs_of_nonpos (sub_nonpos.2 h)]; linarith [hprod i j]
    · rw [abs_of_nonneg (sub_nonneg.2 h)]; have := hprod j i; rw [mul_comm] at this; linarith
  have h2 : ∑ i, ∑ j, |x i - x j| ≤ 2 * m * (∑ i, x i) - 2 * ((∑ i, x i) * (∑ i, x i) / b) := by
    refine (Finset.sum_le_sum (fun i _ => Finset.sum_le_sum (fun j _ => h1 i j))).trans_eq ?_
    simp only [Finset.sum_sub_distrib, Finset.sum_add_distrib, Finset.sum_const, Finset.card_univ, Fintype.card_fin,
      nsmul_eq_mul, ← Finset.mul_sum, ← Finset.sum_div, ← Finset.sum_mul]
    ring
  unfold giniCoefficient
  have e : (∑ i, ∑ j, |x i - x j|) / (m : F) ^ 2 / (2 * ((∑ i, x i) / m)) =
      (∑ i, ∑ j, |x i - x j|) / (2 * m * ∑ i, x i) := by
    field_simp
  rw [e, div_le_iff₀ (by positivity)]
  refine h2.trans_eq ?_
  field_simp

/-- The Gini index vanishes only for equal values. -/
theorem gini_zero (x : Fin m → F) (hm : 0 < m) (hs : 0 < ∑ i, x i) (h : giniCoefficient x = 0) (i j : Fin m) : x i = x j := by
  have hmF : (m : F) ≠ 0 := by exact_mod_cast hm.ne'
  unfold giniCoefficient at h
  have h1 : ∑ i, ∑ j, |x i - x j| = 0 := by
    rcases div_eq_zero_iff.1 h with h | h
    · rcases div_eq_zero_iff.1 h with h | h
      · exact h
      · exact absurd h (pow_ne_zero _ hmF)
    · exact absurd h (mul_ne_zero two_ne_zero (div_ne_zero hs.ne' hmF))
  rw [Finset.sum_eq_zero_iff_of_nonneg (fun i _ => Finset.sum_nonneg (fun j _ => abs_nonneg _))] at h1
  have h2 := h1 i (Finset.mem_univ i)
  rw [Finset.sum_eq_zero_iff_of_nonneg (fun j _ => abs_nonneg _)] at h2
  exact sub_eq_zero.1 (abs_eq_zero.1 (h2 j (Finset.mem_univ j)))

theorem hoover_zero (x : Fin m → F) (hm : 0 < m) (hs : 0 < ∑ i, x i) (h : hooverIndex x = 0) (i j : Fin m) : x i = x j := by
  unfold hooverIndex at h
  have h1 : ∑ i, |x i - (∑ j, x j) / m| = 0 := by
    rcases div_eq_zero_iff.1 h with h | h
    · exact h
    · exact absurd h (mul_ne_zero two_ne_zero hs.ne')
  rw [Finset.sum_eq_zero_iff_of_nonneg (fun i _ => abs_nonneg _)] at h1
  have h2 := abs_eq_zero.1 (h1 i (Finset.mem_univ i))
  have h3 := abs_eq_zero.1 (h1 j (Finset.mem_univ j))
  linarith

/-- Each list contributes `k` occurrences. -/
theorem sum_occurrences {n k : ℕ} (rows : Fin n → Fin k → Fin m) (hinj : ∀ i, Function.Injective (rows i)) :
    ∑ j : Fin m, occurrences (asLists rows) j = n * k := by
  unfold occurrences
  simp only [Finset.card_filter]
  rw [Finset.sum_comm]
  have : ∀ i, (∑ j : Fin m, if j.val ∈ asLists rows i then 1 else 0) = k := by
    intro i
    rw [← Finset.card_filter]
    have e : Finset.univ.filter (fun j : Fin m => j.val ∈ asLists rows i) = Finset.univ.image (rows i) := by
      ext j
      simp [asLists, Fin.ext_iff]
    rw [e, Finset.card_image_of_injective _ (hinj i), Finset.card_univ, Fintype.card_fin]
  rw [Finset.sum_congr rfl (fun i _ => this i), Finset.sum_const, Finset.card_univ, Fintype.card_fin, smul_eq_mul]

/-- **C205**: the statistics computed by `Hubness.fit_transform` for `m` training objects satisfy
`antihub occurrence ≤ Robin Hood ≤ Gini ≤ 1 − k / (m · groupie)` and `groupie / k ≤ Robin Hood + 1 / m`. -/
theorem C205_chain {K : Type} [Field K] [LinearOrder K] (w : World K) (P : Params F) (k : ℕ) (hP : P.k = some (k : ℤ))
    (hk : 1 ≤ k) (bs : ℕ) (shuffle hasSelf : Bool) (X : Data K) (hX : X.Canonical) (hn : 0 < X.nTest) (fit : Fit F)
    (h : fitTransform w P bs shuffle hasSelf X = .ok fit) :
    fit.antihubOccurrence ≤ fit.hood ∧ fit.hood ≤ fit.gini ∧ fit.gini ≤ 1 - k / (X.nTrain * fit.groupie) ∧
      fit.groupie / k ≤ fit.hood + 1 / X.nTrain := by
  obtain ⟨rows, hinj, hd⟩ := C09_statistics w P k hP hk bs shuffle hasSelf X hX hn fit h
  have hsum := sum_occurrences rows hinj
  have hm : 0 < X.nTrain := (rows ⟨0, hn⟩ ⟨0, hk⟩).pos
  have hnF : (0 : F) < X.nTest := by exact_mod_cast hn
  have hkF : (0 : F) < k := by exact_mod_cast hk
  have hmF : (0 : F) < X.nTrain := by exact_mod_cast hm
  have hsumF : ∑ j : Fin X.nTrain, (occurrences (asLists rows) j : F) = X.nTest * k := by exact_mod_cast hsum
  have hs : 0 < ∑ j : Fin X.nTrain, (occurrences (asLists rows) j : F) := by rw [hsumF]; positivity
  obtain ⟨⟨a, ha⟩, hg⟩ := hd.groupie
  refine ⟨?_, ?_, ?_, ?_⟩
  · rw [hd.antihubOccurrence, hd.hood]
    refine le_trans (le_of_eq ?_) (zeros_le_hoover _ hm hs)
    congr 3
    ext j
    rw [Finset.mem_filter, Finset.mem_filter, Nat.cast_eq_zero]
    unfold occurrences
    rw [Finset.card_eq_zero, Finset.filter_eq_empty_iff]
    simp
  · rw [hd.gini, hd.hood]
    exact hoover_le_gini _ hm hs
  · rw [hd.gini]
    have hb : ∀ j : Fin X.nTrain, (occurrences (asLists rows) j : F) ≤ X.nTest * fit.groupie := by
      intro j
      have := hg j
      rwa [div_le_iff₀ hnF, mul_comm] at this
    refine (gini_le_of_bound _ hm hs _ (fun _ => Nat.cast_nonneg _) hb).trans_eq ?_
    rw [hsumF]
    congr 1
    rw [mul_left_comm, mul_div_mul_left _ _ hnF.ne']
  · rw [hd.hood]
    refine le_trans (le_of_eq ?_) (excess_le_hoover _ hm hs a)
    rw [hsumF, ha, div_div]

/-- **C205** (no inequality): the Gini index is zero exactly if the Robin Hood index is, exactly if all objects occur in the
same number of lists. -/
theorem C205_equal {K : Type} [Field K] [LinearOrder K] (w : World K) (P : Params F) (k : ℕ) (hP : P.k = some (k : ℤ))
    (hk : 1 ≤ k) (bs : ℕ) (shuffle hasSelf : Bool) (X : Data K) (hX : X.Canonical) (hn : 0 < X.nTest) (fit : Fit F)
    (h : fitTransform w P bs shuffle hasSelf X = .ok fit) :
    (fit.gini = 0 ↔ ∀ a ∈ fit.kOcc, ∀ b ∈ fit.kOcc, a = b) ∧ (fit.hood = 0 ↔ ∀ a ∈ fit.kOcc, ∀ b ∈ fit.kOcc, a = b) := by
  obtain ⟨rows, hinj, hd⟩ := C09_statistics w P k hP hk bs shuffle hasSelf X hX hn fit h
  have hsum := sum_occurrences rows hinj
  have hm : 0 < X.nTrain := (rows ⟨0, hn⟩ ⟨0, hk⟩).pos
  have hnF : (0 : F) < X.nTest := by exact_mod_cast hn
  have hkF : (0 : F) < k := by exact_mod_cast hk
  have hsumF : ∑ j : Fin X.nTrain, (occurrences (asLists rows) j : F) = X.nTest * k := by exact_mod_cast hsum
  have hs : 0 < ∑ j : Fin X.nTrain, (occurrences (asLists rows) j : F) := by rw [hsumF]; positivity
  have hiff : (∀ a ∈ fit.kOcc, ∀ b ∈ fit.kOcc, a = b) ↔
      ∀ i j : Fin X.nTrain, (occurrences (asLists rows) i : F) = occurrences (asLists rows) j := by
    rw [hd.kOcc]
    simp only [List.mem_ofFn', Set.mem_range, forall_exists_index, forall_apply_eq_imp_iff, Nat.cast_inj]
  rw [hiff, hd.gini, hd.hood]
  refine ⟨⟨gini_zero _ hm hs, fun he => ?_⟩, ⟨hoover_zero _ hm hs, fun he => ?_⟩⟩
  · unfold giniCoefficient
    rw [Finset.sum_eq_zero (fun i _ => Finset.sum_eq_zero (fun j _ => by beta_reduce; rw [he i j, sub_self, abs_zero]))]
    simp
  · have hz : ∀ i : Fin X.nTrain, (occurrences (asLists rows) i : F) -
        (∑ j : Fin X.nTrain, (occurrences (asLists rows) j : F)) / X.nTrain = 0 := by
      intro i
      rw [Finset.sum_congr rfl (fun j _ => he j i), Finset.sum_const, Finset.card_univ, Fintype.card_fin, nsmul_eq_mul,
        mul_div_cancel_left₀ _ (by exact_mod_cast hm.ne'), sub_self]
    unfold hooverIndex
    rw [Finset.sum_eq_zero (fun i _ => by rw [hz i, abs_zero])]
    simp

example (w : World ℚ) := C205_chain w (exP 1 2 "precomputed") 1 rfl le_rfl 64 true true (.dense 3 3 exD false)
  (by simp [Data.Canonical]) (by decide) _ (lineD_fit w).choose_spec

example (w : World ℚ) := C205_equal w (exP 1 2 "precomputed") 1 rfl le_rfl 64 true true (.dense 3 3 exD false)
  (by simp [Data.Canonical]) (by decide) _ (lineD_fit w).choose_spec

end HubToolbox.HubClass
