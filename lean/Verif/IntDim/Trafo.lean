import Verif.IntDim.Props

/-!
# C192, C193: transformed features, duplicate vectors
-/

set_option autoImplicit false

namespace HubToolbox.IntDim

open HubToolbox

theorem colVar_centre {n m : ℕ} (X : Fin n → Fin m → ℝ) (f : Fin m) : colVar (centre X) f = Spec.featureVariance X f := by
  rcases Nat.eq_zero_or_pos n with rfl | hn
  · simp [colVar, Spec.featureVariance, Spec.featureMean]
  have hn' : (n : ℝ) ≠ 0 := by positivity
  have h0 : colMean (centre X) f = 0 := by
    unfold colMean centre
    rw [Finset.sum_sub_distrib, Finset.sum_const, Finset.card_univ, Fintype.card_fin, nsmul_eq_mul]
    unfold colMean
    field_simp
    ring
  unfold colVar
  simp only [h0, sub_zero]
  unfold centre Spec.featureVariance
  have hm : Spec.featureMean X f = colMean X f := rfl
  have hs : ∑ i, X i f = n * colMean X f := by unfold colMean; field_simp
  rw [hm]
  have e : ∀ i, (X i f - colMean X f) ^ 2 = X i f ^ 2 - 2 * colMean X f * X i f + colMean X f ^ 2 := fun i => by ring
  simp only [e]
  rw [Finset.sum_add_distrib, Finset.sum_sub_distrib, ← Finset.mul_sum, hs, Finset.sum_const, Finset.card_univ,
    Fintype.card_fin, nsmul_eq_mul]
  field_simp
  ring

theorem transform_std {n m : ℕ} (X : Fin n → Fin m → ℝ) : transform (some "std") X = .ok (Spec.standardised Real.sqrt X) := by
  unfold transform
  simp only [show ("std" : String) ≠ "var" by decide, if_false, if_true]
  simp only [colVar_centre]
  rfl

theorem transform_var {n m : ℕ} (X : Fin n → Fin m → ℝ) : transform (some "var") X = .ok (Spec.standardised id X) := by
  unfold transform
  simp only [if_true]
  simp only [colVar_centre]
  rfl

theorem trafo_eq (L : LexSort) {n m : ℕ} (X Y : Fin n → Fin m → ℝ) (t : Option String) (h : transform t X = .ok Y) (k1 k2 : ℤ)
    (estimator metric : String) (mem : ℤ) : intrinsicDimension L X k1 k2 estimator metric t mem
      = intrinsicDimension L Y k1 k2 estimator metric none mem := by
  by_cases hv : (estimator = "levina" ∨ estimator = "mackay") ∧ 1 ≤ k1 ∧ k1 ≤ k2 ∧ k2 < n ∧ m ≠ 0 ∧ metric = "vector"
  · obtain ⟨he, h1, h12, h2, hm, rfl⟩ := hv
    rw [eval X he h1 h12 h2 hm, eval _ he h1 h12 h2 hm, h]
    rfl
  · unfold intrinsicDimension
    by_cases he : estimator = "levina" ∨ estimator = "mackay"
    · by_cases hk : k1 < 1 ∨ k2 < k1 ∨ (n : ℤ) ≤ k2
      · simp only [he, hk, if_true, not_true, if_false]
      · by_cases hme : metric = "vector"
        · have hm : m = 0 := by
            by_contra hm
            exact hv ⟨he, by omega, by omega, by omega, hm, hme⟩
          simp only [he, hk, hme, hm, if_true, not_true, if_false]
        · simp only [he, hk, hme, not_true, if_false]
    · simp only [he, not_false_iff, if_true]

/-- C192: the estimate with `trafo='std'` is that of the data with all features brought to mean zero and divided by the
standard deviation (plus `10⁻⁷`). -/
theorem C192_std (L : LexSort) {n m : ℕ} (X : Fin n → Fin m → ℝ) (k1 k2 : ℤ) (estimator metric : String) (mem : ℤ) :
    intrinsicDimension L X k1 k2 estimator metric (some "std") mem
      = intrinsicDimension L (Spec.standardised Real.sqrt X) k1 k2 estimator metric none mem :=
  trafo_eq L X _ _ (transform_std X) k1 k2 estimator metric mem

/-- C192: and with `trafo='var'` divided by the variance. -/
theorem C192_var (L : LexSort) {n m : ℕ} (X : Fin n → Fin m → ℝ) (k1 k2 : ℤ) (estimator metric : String) (mem : ℤ) :
    intrinsicDimension L X k1 k2 estimator metric (some "var") mem
      = intrinsicDimension L (Spec.standardised id X) k1 k2 estimator metric none mem :=
  trafo_eq L X _ _ (transform_var X) k1 k2 estimator metric mem

theorem standardised_const {n m : ℕ} (scale : ℝ → ℝ) (X : Fin n → Fin m → ℝ) (f : Fin m) (hf : ∀ i j, X i f = X j f) (i : Fin n) :
    Spec.standardised scale X i f = 0 := by
  have hn : (n : ℝ) ≠ 0 := by
    have : 0 < n := lt_of_le_of_lt (Nat.zero_le _) i.2
    positivity
  have : Spec.featureMean X f = X i f := by
    unfold Spec.featureMean
    rw [Finset.sum_congr rfl fun j _ => hf j i, Finset.sum_const, Finset.card_univ, Fintype.card_fin, nsmul_eq_mul]
    field_simp
  rw [Spec.standardised, this, sub_self, zero_div]

theorem dist_drop {m : ℕ} (f : Fin (m + 1)) (x y : Fin (m + 1) → ℝ) (h : x f = y f) :
    Spec.dist x y = Spec.dist (fun g => x (f.succAbove g)) fun g => y (f.succAbove g) := by
  unfold Spec.dist
  rw [Fin.sum_univ_succAbove _ f, h, sub_self]
  simp

/-- C192: a feature which is the same for all objects does not influence the estimate, whatever the transformation. -/
theorem C192_constant (L : LexSort) {n m : ℕ} (hm : m ≠ 0) (X : Fin n → Fin (m + 1) → ℝ) (f : Fin (m + 1))
    (hf : ∀ i j, X i f = X j f) (k1 k2 : ℤ) (estimator metric : String) (trafo : Option String) (mem : ℤ) :
    intrinsicDimension L X k1 k2 estimator metric trafo mem
      = intrinsicDimension L (fun i g => X i (f.succAbove g)) k1 k2 estimator metric trafo mem := by
  have key : ∀ Y : Fin n → Fin (m + 1) → ℝ, (∀ i j, Y i f = Y j f) →
      intrinsicDimension L Y k1 k2 estimator metric none mem
        = intrinsicDimension L (fun i g => Y i (f.succAbove g)) k1 k2 estimator metric none mem := fun Y hY =>
    C110_isometry L (Nat.succ_ne_zero m) hm Y _ (Equiv.refl _) (fun i j => dist_drop f (Y i) (Y j) (hY i j)) k1 k2 estimator
      metric mem
  have hz : ∀ scale : ℝ → ℝ, intrinsicDimension L (Spec.standardised scale X) k1 k2 estimator metric none mem
      = intrinsicDimension L (Spec.standardised scale fun i g => X i (f.succAbove g)) k1 k2 estimator metric none mem :=
    fun scale => key _ fun i j => by rw [standardised_const scale X f hf, standardised_const scale X f hf]
  cases trafo with
  | none => exact key X hf
  | some t =>
    by_cases h1 : t = "std"
    · subst h1; rw [C192_std, C192_std, hz]
    by_cases h2 : t = "var"
    · subst h2; rw [C192_var, C192_var, hz]
    have ht : some t ∉ [none, some "std", some "var"] := by simp [h1, h2]
    unfold intrinsicDimension transform
    simp only [h1, h2, if_false, hm, Nat.succ_ne_zero m]
    rfl

/-- Standardising matters: the first feature is constant, the second is not. -/
example : Spec.standardised id (![![5, 1], ![5, -1]] : Fin 2 → Fin 2 → ℝ) 0 1 = 1 / (1 + 1 / 10 ^ 7) := by
  norm_num [Spec.standardised, Spec.featureVariance, Spec.featureMean, Fin.sum_univ_two]

/-! ## Duplicates -/

/-- Five points on a line, the first two are the same. -/
def twice (c : ℝ) : Fin 5 → Fin 1 → ℝ := fun i _ => c * (![0, 0, 1, 3, 7] : Fin 5 → ℝ) i

theorem logRow_of_perm {n : ℕ} {d : Fin n → ℝ} {s : List ℝ} (h : (List.ofFn d).Perm s) (hs : s.Pairwise (· ≤ ·)) (c : ℕ) :
    logRow d c = 1 / 2 * Real.log ((s.map fix).getD (c + 1) 0) := by
  unfold logRow
  rw [sort_eq h hs]

theorem dhat3 {n : ℕ} (knn : Fin n → ℕ → ℝ) (i : Fin n) (h : knn i 0 + knn i 1 - 2 * knn i 2 ≠ 0) :
    dhat knn 3 i 0 = .fin (1 / (2 * knn i 2 - knn i 0 - knn i 1)) := by
  unfold dhat
  have e : (∑ c ∈ Finset.range (3 + 0), knn i c) - knn i (3 + 0 - 1) * ((3 + 0 : ℕ) : ℝ) = knn i 0 + knn i 1 - 2 * knn i 2 := by
    rw [show 3 + 0 = 0 + 1 + 1 + 1 from rfl, Finset.sum_range_succ, Finset.sum_range_succ, Finset.sum_range_succ]
    norm_num
    ring
  rw [e]
  simp only [XR.div, if_neg h]
  congr 1
  rw [← neg_ne_zero] at h
  have h' : 2 * knn i 2 - knn i 0 - knn i 1 ≠ 0 := by convert h using 1; ring
  rw [neg_ne_zero] at h
  rw [div_eq_div_iff h h']
  norm_num
  ring

theorem fix_pos {x : ℝ} (h : 0 < x) : fix x = x := if_neg (not_le.mpr h)

theorem fix_zero : fix 0 = 1 / 10 ^ 7 := if_pos le_rfl

theorem twice_sq (c : ℝ) (i j : Fin 5) : sqDist (twice c) i j
    = c ^ 2 * ((![0, 0, 1, 3, 7] : Fin 5 → ℝ) i - (![0, 0, 1, 3, 7] : Fin 5 → ℝ) j) ^ 2 := by
  rw [sqDist_eq, Fin.sum_univ_one]
  unfold twice
  ring

theorem log_scaled {c v : ℝ} (hc : 0 < c) (hv : 0 < v) : 1 / 2 * Real.log (fix (c ^ 2 * v)) = Real.log c + 1 / 2 * Real.log v := by
  rw [fix_pos (by positivity), Real.log_mul (by positivity) hv.ne', Real.log_pow]
  push_cast
  ring

/-- What the five points contribute; only the duplicates depend on the unit `c`. -/
theorem twice_dhat {c : ℝ} (hc : 1 ≤ c) (i : Fin 5) : dhat (fun i => logRow (sqDist (twice c) i)) 3 i 0
    = .fin ((![1 / (Real.log c + Real.log 9 - 1 / 2 * Real.log (1 / 10 ^ 7)),
        1 / (Real.log c + Real.log 9 - 1 / 2 * Real.log (1 / 10 ^ 7)), 1 / Real.log 4,
        1 / (1 / 2 * Real.log 9 - 1 / 2 * Real.log 4), 1 / (Real.log 49 - 1 / 2 * Real.log 16 - 1 / 2 * Real.log 36)] :
        Fin 5 → ℝ) i) := by
  have hc0 : 0 < c := by linarith
  have hlc : 0 ≤ Real.log c := Real.log_nonneg hc
  have h9 : 0 < Real.log 9 := Real.log_pos (by norm_num)
  have h4 : 0 < Real.log 4 := Real.log_pos (by norm_num)
  have h7 : Real.log (1 / 10 ^ 7) < 0 := Real.log_neg (by norm_num) (by norm_num)
  have h94 : Real.log 4 < Real.log 9 := Real.log_lt_log (by norm_num) (by norm_num)
  have h36 : Real.log 36 < Real.log 49 := Real.log_lt_log (by norm_num) (by norm_num)
  have h16 : Real.log 16 < Real.log 49 := Real.log_lt_log (by norm_num) (by norm_num)
  have hofn : ∀ i, List.ofFn (sqDist (twice c) i) = [sqDist (twice c) i 0, sqDist (twice c) i 1, sqDist (twice c) i 2,
      sqDist (twice c) i 3, sqDist (twice c) i 4] := fun i => rfl
  have hc2 : 0 < c ^ 2 := by positivity
  have sorted : ∀ a b d e : ℝ, 0 ≤ a → a ≤ b → b ≤ d → d ≤ e →
      [0, c ^ 2 * a, c ^ 2 * b, c ^ 2 * d, c ^ 2 * e].Pairwise (· ≤ ·) := by
    intro a b d e h0 h1 h2 h3
    have := mul_le_mul_of_nonneg_left h0 hc2.le
    have := mul_le_mul_of_nonneg_left h1 hc2.le
    have := mul_le_mul_of_nonneg_left h2 hc2.le
    have := mul_le_mul_of_nonneg_left h3 hc2.le
    simp only [List.pairwise_cons, List.mem_cons, List.not_mem_nil, or_false, forall_eq_or_imp, forall_eq, List.Pairwise.nil,
      and_true, false_imp_iff, implies_true]
    refine ⟨⟨?_, ?_, ?_, ?_⟩, ⟨?_, ?_, ?_⟩, ⟨?_, ?_⟩, ?_⟩ <;> linarith
  have row : ∀ (i : Fin 5) (a b d e : ℝ), 0 < a → a ≤ b → b ≤ d → d ≤ e →
      (List.ofFn (sqDist (twice c) i)).Perm [0, c ^ 2 * a, c ^ 2 * b, c ^ 2 * d, c ^ 2 * e] →
      Real.log a + Real.log b ≠ 2 * Real.log d → dhat (fun i => logRow (sqDist (twice c) i)) 3 i 0
        = .fin (1 / (Real.log d - 1 / 2 * Real.log a - 1 / 2 * Real.log b)) := by
    intro i a b d e h0 h1 h2 h3 hp hne
    have hs := sorted a b d e h0.le h1 h2 h3
    have k0 : logRow (sqDist (twice c) i) 0 = Real.log c + 1 / 2 * Real.log a := by
      rw [logRow_of_perm hp hs]; exact log_scaled hc0 h0
    have k1 : logRow (sqDist (twice c) i) 1 = Real.log c + 1 / 2 * Real.log b := by
      rw [logRow_of_perm hp hs]; exact log_scaled hc0 (by linarith)
    have k2 : logRow (sqDist (twice c) i) 2 = Real.log c + 1 / 2 * Real.log d := by
      rw [logRow_of_perm hp hs]; exact log_scaled hc0 (by linarith)
    rw [dhat3]
    · simp only [k0, k1, k2]
      congr 2
      ring
    · simp only [k0, k1, k2]
      intro h
      apply hne
      linarith
  have row0 : ∀ i : Fin 5, (List.ofFn (sqDist (twice c) i)).Perm [0, c ^ 2 * 0, c ^ 2 * 1, c ^ 2 * 9, c ^ 2 * 49] →
      dhat (fun i => logRow (sqDist (twice c) i)) 3 i 0
        = .fin (1 / (Real.log c + Real.log 9 - 1 / 2 * Real.log (1 / 10 ^ 7))) := by
    intro i hp
    have hs := sorted 0 1 9 49 le_rfl (by norm_num) (by norm_num) (by norm_num)
    have k0 : logRow (sqDist (twice c) i) 0 = 1 / 2 * Real.log (1 / 10 ^ 7) := by
      rw [logRow_of_perm hp hs]
      show 1 / 2 * Real.log (fix (c ^ 2 * 0)) = _
      rw [mul_zero, fix_zero]
    have k1 : logRow (sqDist (twice c) i) 1 = Real.log c + 1 / 2 * Real.log 1 := by
      rw [logRow_of_perm hp hs]; exact log_scaled hc0 (by norm_num)
    have k2 : logRow (sqDist (twice c) i) 2 = Real.log c + 1 / 2 * Real.log 9 := by
      rw [logRow_of_perm hp hs]; exact log_scaled hc0 (by norm_num)
    rw [Real.log_one] at k1
    rw [dhat3]
    · simp only [k0, k1, k2]
      congr 2
      ring
    · simp only [k0, k1, k2]
      intro h
      linarith
  fin_cases i
  · refine row0 0 ?_
    rw [hofn]
    simp only [twice_sq]
    show List.Perm [c ^ 2 * ((0 : ℝ) - 0) ^ 2, c ^ 2 * ((0 : ℝ) - 0) ^ 2, c ^ 2 * ((0 : ℝ) - 1) ^ 2, c ^ 2 * ((0 : ℝ) - 3) ^ 2, c ^ 2 * ((0 : ℝ) - 7) ^ 2]
      _
    norm_num
  · refine row0 1 ?_
    rw [hofn]
    simp only [twice_sq]
    show List.Perm [c ^ 2 * ((0 : ℝ) - 0) ^ 2, c ^ 2 * ((0 : ℝ) - 0) ^ 2, c ^ 2 * ((0 : ℝ) - 1) ^ 2, c ^ 2 * ((0 : ℝ) - 3) ^ 2, c ^ 2 * ((0 : ℝ) - 7) ^ 2]
      _
    norm_num
  · refine (row 2 1 1 4 36 (by norm_num) (by norm_num) (by norm_num) (by norm_num) ?_ (by rw [Real.log_one]; linarith)).trans ?_
    · rw [hofn]
      simp only [twice_sq]
      show List.Perm [c ^ 2 * ((1 : ℝ) - 0) ^ 2, c ^ 2 * ((1 : ℝ) - 0) ^ 2, c ^ 2 * ((1 : ℝ) - 1) ^ 2, c ^ 2 * ((1 : ℝ) - 3) ^ 2, c ^ 2 * ((1 : ℝ) - 7) ^ 2]
        _
      norm_num
      exact List.perm_middle (l₁ := [c ^ 2, c ^ 2])
    · rw [Real.log_one]
      norm_num
  · refine (row 3 4 9 9 16 (by norm_num) (by norm_num) (by norm_num) (by norm_num) ?_ (by linarith)).trans ?_
    · rw [hofn]
      simp only [twice_sq]
      show List.Perm [c ^ 2 * ((3 : ℝ) - 0) ^ 2, c ^ 2 * ((3 : ℝ) - 0) ^ 2, c ^ 2 * ((3 : ℝ) - 1) ^ 2, c ^ 2 * ((3 : ℝ) - 3) ^ 2, c ^ 2 * ((3 : ℝ) - 7) ^ 2]
        _
      norm_num
      refine (List.perm_middle (l₁ := [c ^ 2 * 9, c ^ 2 * 9, c ^ 2 * 4])).trans (List.Perm.cons _ ?_)
      exact List.perm_middle (l₁ := [c ^ 2 * 9, c ^ 2 * 9])
    · congr 1
      show _ = 1 / (1 / 2 * Real.log 9 - 1 / 2 * Real.log 4)
      congr 1
      ring
  · refine (row 4 16 36 49 49 (by norm_num) (by norm_num) (by norm_num) (by norm_num) ?_ (by linarith)).trans ?_
    · rw [hofn]
      simp only [twice_sq]
      show List.Perm [c ^ 2 * ((7 : ℝ) - 0) ^ 2, c ^ 2 * ((7 : ℝ) - 0) ^ 2, c ^ 2 * ((7 : ℝ) - 1) ^ 2, c ^ 2 * ((7 : ℝ) - 3) ^ 2, c ^ 2 * ((7 : ℝ) - 7) ^ 2]
        _
      norm_num
      exact List.reverse_perm [0, c ^ 2 * 16, c ^ 2 * 36, c ^ 2 * 49, c ^ 2 * 49]
    · rfl

theorem twice_estimate (L : LexSort) (mem : ℤ) {c : ℝ} (hc : 1 ≤ c) :
    intrinsicDimension L (twice c) 3 3 "levina" "vector" none mem
      = .ok (.fin ((2 / (Real.log c + Real.log 9 - 1 / 2 * Real.log (1 / 10 ^ 7)) + (1 / Real.log 4
        + 1 / (1 / 2 * Real.log 9 - 1 / 2 * Real.log 4) + 1 / (Real.log 49 - 1 / 2 * Real.log 16 - 1 / 2 * Real.log 36))) / 5)) := by
  rw [eval _ (Or.inl rfl) (by norm_num) le_rfl (by norm_num) (by norm_num)]
  simp only [transform, Except.map, core, if_true]
  congr 1
  unfold levina
  have e : ∀ i, XR.sum (fun b : Fin (3 + 1 - 3 : ℤ).toNat => dhat (fun i => logRow (sqDist (twice c) i)) (3 : ℤ).toNat i b)
      = dhat (fun i => logRow (sqDist (twice c) i)) 3 i 0 := by
    intro i
    rw [twice_dhat hc]
    show XR.sum (fun b : Fin 1 => dhat (fun i => logRow (sqDist (twice c) i)) 3 i b) = _
    have : ∀ b : Fin 1, dhat (fun i => logRow (sqDist (twice c) i)) 3 i b = dhat (fun i => logRow (sqDist (twice c) i)) 3 i 0 := by
      intro b
      rw [Subsingleton.elim b 0]
      rfl
    simp only [this, twice_dhat hc, Cent.sum_fin, Fin.sum_univ_one]
  simp only [e, twice_dhat hc, Cent.sum_fin]
  have h5 : ((5 * (3 + 1 - 3 : ℤ).toNat : ℕ) : ℝ) = 5 := by norm_num
  rw [h5]
  simp only [XR.div, if_neg (show (5 : ℝ) ≠ 0 by norm_num)]
  congr 2
  rw [Fin.sum_univ_five]
  show _ + _ + _ + _ + _ = _
  simp only [Matrix.cons_val]
  ring

/-- The estimates of `twice 1` and `twice 2` differ. -/
theorem twice_differs (L : LexSort) (mem : ℤ) : intrinsicDimension L (twice 2) 3 3 "levina" "vector" none mem
    ≠ intrinsicDimension L (twice 1) 3 3 "levina" "vector" none mem := by
  rw [twice_estimate L mem one_le_two, twice_estimate L mem le_rfl]
  have h9 : 0 < Real.log 9 := Real.log_pos (by norm_num)
  have h2 : 0 < Real.log 2 := Real.log_pos (by norm_num)
  have h7 : Real.log (1 / 10 ^ 7) < 0 := Real.log_neg (by norm_num) (by norm_num)
  intro h
  injection h with h
  injection h with h
  have h' : 2 / (Real.log 2 + Real.log 9 - 1 / 2 * Real.log (1 / 10 ^ 7))
      = 2 / (Real.log 1 + Real.log 9 - 1 / 2 * Real.log (1 / 10 ^ 7)) := by linarith
  rw [Real.log_one, div_eq_div_iff (by linarith) (by linarith)] at h'
  linarith

/-- C193: the claim that duplicates are removed (comment in `/repo/hub_toolbox/intrinsic_dimension.py` line 89) does not hold:
there are data with one vector given twice whose estimate is not that of the data with this vector given once. -/
theorem C193_violated (L : LexSort) (mem : ℤ) : ∃ X : Fin 5 → Fin 1 → ℝ, X 0 = X 1 ∧ Function.Injective (fun i : Fin 4 => X i.succ) ∧
    intrinsicDimension L X 3 3 "levina" "vector" none mem
      ≠ intrinsicDimension L (fun i : Fin 4 => X i.succ) 3 3 "levina" "vector" none mem := by
  have hinj : ∀ c : ℝ, c ≠ 0 → Function.Injective (fun i : Fin 4 => twice c i.succ) := by
    intro c hc i j h
    have h0 := congrFun h 0
    simp only [twice] at h0
    have h1 := mul_left_cancel₀ hc h0
    have hv : ∀ i : Fin 4, (![0, 0, 1, 3, 7] : Fin 5 → ℝ) i.succ = ((![0, 1, 3, 7] : Fin 4 → ℕ) i : ℝ) := by
      intro i
      fin_cases i
      · exact (by norm_num : (0 : ℝ) = ((0 : ℕ) : ℝ))
      · exact (by norm_num : (1 : ℝ) = ((1 : ℕ) : ℝ))
      · exact (by norm_num : (3 : ℝ) = ((3 : ℕ) : ℝ))
      · exact (by norm_num : (7 : ℝ) = ((7 : ℕ) : ℝ))
    rw [hv, hv] at h1
    exact (by decide : Function.Injective (![0, 1, 3, 7] : Fin 4 → ℕ)) (Nat.cast_injective h1)
  have hsame : ∀ c, twice c 0 = twice c 1 := fun c => rfl
  by_contra hall
  push Not at hall
  have h1 := hall (twice 1) (hsame 1) (hinj 1 one_ne_zero)
  have h2 := hall (twice 2) (hsame 2) (hinj 2 two_ne_zero)
  refine twice_differs L mem ?_
  rw [h1, h2]
  have e : (fun i : Fin 4 => twice 2 i.succ) = fun i f => 2 * (fun i : Fin 4 => twice 1 i.succ) i f := by
    funext i f
    simp [twice]
  rw [e]
  exact C50_scale L _ (hinj 1 one_ne_zero) 2 two_ne_zero 3 3 "levina" "vector" mem

/-- C193: nor is the estimate independent of the unit if there are duplicates (`C50_scale` needs different vectors). -/
theorem C193_violated_scale (L : LexSort) (mem : ℤ) : ∃ (X : Fin 5 → Fin 1 → ℝ) (c : ℝ), 0 < c ∧
    intrinsicDimension L (fun i f => c * X i f) 3 3 "levina" "vector" none mem
      ≠ intrinsicDimension L X 3 3 "levina" "vector" none mem := by
  refine ⟨twice 1, 2, two_pos, ?_⟩
  have e : (fun i f => 2 * twice 1 i f) = twice 2 := by
    funext i f
    simp [twice]
  rw [e]
  exact twice_differs L mem

end HubToolbox.IntDim
