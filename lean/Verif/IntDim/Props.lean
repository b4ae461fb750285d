import Verif.IntDim.Lemmas
import Mathlib.Analysis.Complex.ExponentialBounds

/-!
# Properties of the intrinsic dimension estimator
-/

set_option autoImplicit false

namespace HubToolbox.IntDim

open HubToolbox

/-- C50: multiplying all vectors by the same number other than zero does not change the estimate, if no two vectors are the same. -/
theorem C50_scale (L : LexSort) {n m : ℕ} (X : Fin n → Fin m → ℝ) (hX : Function.Injective X) (c : ℝ) (hc : c ≠ 0) (k1 k2 : ℤ)
    (estimator metric : String) (mem : ℤ) : intrinsicDimension L (fun i f => c * X i f) k1 k2 estimator metric none mem
      = intrinsicDimension L X k1 k2 estimator metric none mem := by
  by_cases hv : (estimator = "levina" ∨ estimator = "mackay") ∧ 1 ≤ k1 ∧ k1 ≤ k2 ∧ k2 < n ∧ m ≠ 0 ∧ metric = "vector"
  · obtain ⟨he, h1, h12, h2, hm, rfl⟩ := hv
    rw [eval X he h1 h12 h2 hm, eval _ he h1 h12 h2 hm]
    simp only [transform, Except.map]
    congr 1
    choose T hT using neighbours_exist X
    have hd : ∀ i j, Spec.dist (fun f => c * X i f) (fun f => c * X j f) = |c| * Spec.dist (X i) (X j) := by
      intro i j
      unfold Spec.dist
      rw [← Real.sqrt_sq_eq_abs, ← Real.sqrt_mul (sq_nonneg c), Finset.mul_sum]
      congr 1
      exact Finset.sum_congr rfl fun f _ => by ring
    have hT' : ∀ i, Spec.Neighbours (fun i f => c * X i f) i (fun b => |c| * T i b) := by
      intro i
      refine ⟨fun a b hab hb => mul_le_mul_of_nonneg_left ((hT i).1 a b hab hb) (abs_nonneg c), ?_⟩
      have := congrArg (Multiset.map (fun x => |c| * x)) (hT i).2
      rw [Multiset.map_map, Multiset.map_map] at this
      simp only [hd]
      exact this
    have hrow : ∀ i b, b + 1 < n → logRow (sqDist (fun i f => c * X i f) i) b = Real.log |c| + logRow (sqDist X i) b := by
      intro i b hb
      have hp := neighbours_pos X hX i (T i) (hT i) b hb
      rw [logRow_eq X i (T i) (hT i) b hb hp, logRow_eq _ i _ (hT' i) b hb (mul_pos (abs_pos.mpr hc) hp),
        Real.log_mul (abs_pos.mpr hc).ne' hp.ne']
    refine core_congr estimator _ _ h1 ?_
    intro k hk1 hk2 i
    rw [Finset.sum_congr rfl (fun b hb => hrow i b (by have := Finset.mem_range.mp hb; omega)), hrow i (k - 1) (by omega),
      Finset.sum_add_distrib, Finset.sum_const, Finset.card_range, nsmul_eq_mul]
    ring
  · unfold intrinsicDimension
    by_cases he : estimator = "levina" ∨ estimator = "mackay"
    · by_cases hk : k1 < 1 ∨ k2 < k1 ∨ (n : ℤ) ≤ k2
      · simp only [he, hk, if_true, not_true, if_false]
      · by_cases hme : metric = "vector"
        · have hm : m = 0 := by
            by_contra hm
            exact hv ⟨he, by omega, by omega, by omega, hm, hme⟩
          simp only [he, hk, hme, hm, if_true, not_true, if_false]
        · simp only [he, hk, hme, not_true, if_false]
    · simp only [he, not_false_iff, if_true]

/-- C50: the order of the rows does not matter, whatever the other parameters. -/
theorem C50_permute (L : LexSort) {n m : ℕ} (X : Fin n → Fin m → ℝ) (σ : Equiv.Perm (Fin n)) (k1 k2 : ℤ)
    (estimator metric : String) (trafo : Option String) (mem : ℤ) :
    intrinsicDimension L (fun i => X (σ i)) k1 k2 estimator metric trafo mem
      = intrinsicDimension L X k1 k2 estimator metric trafo mem := by
  by_cases hv : (estimator = "levina" ∨ estimator = "mackay") ∧ 1 ≤ k1 ∧ k1 ≤ k2 ∧ k2 < n ∧ m ≠ 0 ∧ metric = "vector"
  · obtain ⟨he, h1, h12, h2, hm, rfl⟩ := hv
    rw [eval X he h1 h12 h2 hm, eval _ he h1 h12 h2 hm, transform_perm]
    cases transform trafo X with
    | error e => rfl
    | ok Y =>
      simp only [Except.map]
      congr 1
      rw [← core_perm estimator (fun i => logRow (sqDist Y i)) k1 k2 σ]
      congr 1
      funext i
      exact logRow_perm (sqDist Y (σ i)) σ
  · unfold intrinsicDimension
    by_cases he : estimator = "levina" ∨ estimator = "mackay"
    · by_cases hk : k1 < 1 ∨ k2 < k1 ∨ (n : ℤ) ≤ k2
      · simp only [he, hk, if_true, not_true, if_false]
      · by_cases hme : metric = "vector"
        · have hm : m = 0 := by
            by_contra hm
            exact hv ⟨he, by omega, by omega, by omega, hm, hme⟩
          simp only [he, hk, hme, hm, if_true, not_true, if_false]
        · simp only [he, hk, hme, not_true, if_false]
    · simp only [he, not_false_iff, if_true]

/-- C50: neighbourhood ranges other than `1 ≤ k1 ≤ k2 < n`, unknown estimators, data types and transformations are rejected. -/
theorem C50_rejects (L : LexSort) {n m : ℕ} (X : Fin n → Fin m → ℝ) (k1 k2 : ℤ) (estimator metric : String)
    (trafo : Option String) (mem : ℤ) :
    (¬(1 ≤ k1 ∧ k1 ≤ k2 ∧ k2 < n) → intrinsicDimension L X k1 k2 estimator metric trafo mem = .error .valueError) ∧
    (estimator ≠ "levina" → estimator ≠ "mackay" →
      intrinsicDimension L X k1 k2 estimator metric trafo mem = .error .valueError) ∧
    (metric ∉ ["vector", "distance", "similarity"] →
      intrinsicDimension L X k1 k2 estimator metric trafo mem = .error .valueError) ∧
    (trafo ∉ [none, some "std", some "var"] → m ≠ 0 →
      intrinsicDimension L X k1 k2 estimator "vector" trafo mem = .error .valueError) := by
  refine ⟨fun h => ?_, fun h h' => ?_, fun h => ?_, fun h hm => ?_⟩
  · unfold intrinsicDimension
    have hk : k1 < 1 ∨ k2 < k1 ∨ (n : ℤ) ≤ k2 := by omega
    split_ifs <;> rfl
  · unfold intrinsicDimension
    rw [if_pos (by tauto)]
  · simp only [List.mem_cons, List.not_mem_nil, or_false, not_or] at h
    unfold intrinsicDimension
    simp only [h.1, h.2.1, h.2.2, if_false, or_self]
    split_ifs <;> rfl
  · unfold intrinsicDimension
    have ht : ∀ Y : Fin n → Fin m → ℝ, transform trafo Y = .error .valueError := by
      intro Y
      cases trafo with
      | none => simp at h
      | some t =>
        simp only [List.mem_cons, List.not_mem_nil, or_false, not_or, Option.some.injEq] at h
        simp [transform, h.2.1, h.2.2]
    rw [ht, if_pos rfl]
    split_ifs <;> rfl

/-- C110: without transformation the estimate depends on nothing but the distances between the vectors: data sets whose points
correspond to each other such that all distances are the same have the same estimate, even if the number of features differs. -/
theorem C110_isometry (L : LexSort) {n m m' : ℕ} (hm : m ≠ 0) (hm' : m' ≠ 0) (X : Fin n → Fin m → ℝ) (Y : Fin n → Fin m' → ℝ)
    (σ : Equiv.Perm (Fin n)) (hd : ∀ i j, Spec.dist (X i) (X j) = Spec.dist (Y (σ i)) (Y (σ j))) (k1 k2 : ℤ)
    (estimator metric : String) (mem : ℤ) : intrinsicDimension L X k1 k2 estimator metric none mem
      = intrinsicDimension L Y k1 k2 estimator metric none mem := by
  by_cases hv : (estimator = "levina" ∨ estimator = "mackay") ∧ 1 ≤ k1 ∧ k1 ≤ k2 ∧ k2 < n ∧ metric = "vector"
  · obtain ⟨he, h1, h12, h2, rfl⟩ := hv
    rw [eval X he h1 h12 h2 hm, eval Y he h1 h12 h2 hm']
    simp only [transform, Except.map]
    congr 1
    rw [← core_perm estimator (fun i => logRow (sqDist Y i)) k1 k2 σ]
    congr 1
    funext i
    rw [← logRow_perm (sqDist Y (σ i)) σ]
    congr 1
    funext j
    rw [sqDist_dist, sqDist_dist, hd]
  · unfold intrinsicDimension
    by_cases he : estimator = "levina" ∨ estimator = "mackay"
    · by_cases hk : k1 < 1 ∨ k2 < k1 ∨ (n : ℤ) ≤ k2
      · simp only [he, hk, if_true, not_true, if_false]
      · by_cases hme : metric = "vector"
        · exact absurd ⟨he, by omega, by omega, by omega, hme⟩ hv
        · simp only [he, hk, hme, not_true, if_false]
    · simp only [he, not_false_iff, if_true]

/-- C110: moving all points by the same vector does not change the estimate, whatever the transformation. -/
theorem C110_translation (L : LexSort) {n m : ℕ} (X : Fin n → Fin m → ℝ) (t : Fin m → ℝ) (k1 k2 : ℤ)
    (estimator metric : String) (trafo : Option String) (mem : ℤ) :
    intrinsicDimension L (fun i f => X i f + t f) k1 k2 estimator metric trafo mem
      = intrinsicDimension L X k1 k2 estimator metric trafo mem := by
  by_cases hv : (estimator = "levina" ∨ estimator = "mackay") ∧ 1 ≤ k1 ∧ k1 ≤ k2 ∧ k2 < n ∧ m ≠ 0 ∧ metric = "vector"
  · obtain ⟨he, h1, h12, h2, hm, rfl⟩ := hv
    cases trafo with
    | none =>
      refine C110_isometry L hm hm _ _ (Equiv.refl _) ?_ k1 k2 estimator _ mem
      intro i j
      simp [Spec.dist]
    | some s =>
      rw [eval X he h1 h12 h2 hm, eval _ he h1 h12 h2 hm]
      have hn : (n : ℝ) ≠ 0 := by
        have : 0 < n := by omega
        positivity
      have hc : centre (fun i f => X i f + t f) = centre X := by
        funext i f
        unfold centre colMean
        rw [Finset.sum_add_distrib, Finset.sum_const, Finset.card_univ, Fintype.card_fin, nsmul_eq_mul]
        field_simp
        ring
      unfold transform
      rw [hc]
  · unfold intrinsicDimension
    by_cases he : estimator = "levina" ∨ estimator = "mackay"
    · by_cases hk : k1 < 1 ∨ k2 < k1 ∨ (n : ℤ) ≤ k2
      · simp only [he, hk, if_true, not_true, if_false]
      · by_cases hme : metric = "vector"
        · have hm : m = 0 := by
            by_contra hm
            exact hv ⟨he, by omega, by omega, by omega, hm, hme⟩
          simp only [he, hk, hme, hm, if_true, not_true, if_false]
        · simp only [he, hk, hme, not_true, if_false]
    · simp only [he, not_false_iff, if_true]

/-- C111: `mem_threshold` does not change the result. -/
theorem C111_memory (L : LexSort) {n m : ℕ} (X : Fin n → Fin m → ℝ) (k1 k2 : ℤ) (estimator metric : String)
    (trafo : Option String) (mem mem' : ℤ) : intrinsicDimension L X k1 k2 estimator metric trafo mem
      = intrinsicDimension L X k1 k2 estimator metric trafo mem' := by
  unfold intrinsicDimension
  simp only [knnMatrix_eq]

theorem logRatios_eq (T : ℕ → ℝ) (k : ℕ) (hk : 1 ≤ k) (hT : ∀ c, c < k → 0 < T c) :
    (∑ c ∈ Finset.range k, Real.log (T c)) - Real.log (T (k - 1)) * k = -Spec.logRatios T k := by
  obtain ⟨k, rfl⟩ : ∃ k', k = k' + 1 := ⟨k - 1, by omega⟩
  unfold Spec.logRatios
  simp only [Nat.add_sub_cancel]
  have h : ∀ j ∈ Finset.range k, Real.log (T k / T j) = Real.log (T k) - Real.log (T j) := fun j hj =>
    Real.log_div (hT k (by omega)).ne' (hT j (by have := Finset.mem_range.mp hj; omega)).ne'
  rw [Finset.sum_congr rfl h, Finset.sum_sub_distrib, Finset.sum_const, Finset.card_range, Finset.sum_range_succ,
    nsmul_eq_mul]
  push_cast
  ring

theorem logRatios_pos (T : ℕ → ℝ) (k : ℕ) (hk : 2 ≤ k) (h0 : 0 < T 0) (hm : ∀ a b, a ≤ b → b < k → T a ≤ T b)
    (hlt : T 0 < T (k - 1)) : 0 < Spec.logRatios T k := by
  have hp : ∀ c, c < k → 0 < T c := fun c hc => h0.trans_le (hm 0 c (by omega) hc)
  refine Finset.sum_pos' (fun j hj => ?_) ⟨0, Finset.mem_range.mpr (by omega), ?_⟩
  · have := Finset.mem_range.mp hj
    exact Real.log_nonneg ((one_le_div (hp j (by omega))).mpr (hm j (k - 1) (by omega) (by omega)))
  · exact Real.log_pos ((one_lt_div h0).mpr hlt)

theorem sum_pinf {k : ℕ} (hk : 0 < k) : XR.sum (fun _ : Fin k => (.pinf : XR ℝ)) = .pinf := by
  have h : ∀ l : List (Fin k), l.foldl (fun (acc : XR ℝ) (_ : Fin k) => XR.add acc .pinf) .pinf = .pinf := by
    intro l
    induction l with
    | nil => rfl
    | cons a l ih => exact ih
  obtain ⟨k, rfl⟩ : ∃ k', k = k' + 1 := ⟨k - 1, by omega⟩
  unfold XR.sum
  rw [List.finRange_succ, List.foldl_cons]
  exact h _

theorem sum_Icc (f : ℕ → ℝ) (k1 k2 w : ℕ) (h : k1 + w = k2 + 1) : ∑ k ∈ Finset.Icc k1 k2, f k = ∑ b : Fin w, f (k1 + b) := by
  have hI : Finset.Icc k1 k2 = Finset.Ico k1 (k1 + w) := by
    ext k
    simp only [Finset.mem_Icc, Finset.mem_Ico]
    omega
  rw [Fin.sum_univ_eq_sum_range (fun b => f (k1 + b)) w, hI, Finset.sum_Ico_eq_sum_range, Nat.add_sub_cancel_left]

/-- C109: for different vectors, of which none has `k1` equally near nearest neighbours, and `k1 ≥ 2`, the result is the
estimate of Levina and Bickel (or its correction by MacKay and Ghahramani) from the sorted distances. The case `k1 = 1`, which
is accepted as well, is missing: see `C112_violated`. -/
theorem C109_formula_partial (L : LexSort) {n m : ℕ} (X : Fin n → Fin m → ℝ) (hm : m ≠ 0) (hX : Function.Injective X)
    (T : Fin n → ℕ → ℝ) (hT : ∀ i, Spec.Neighbours X i (T i)) (k1 k2 : ℕ) (h1 : 2 ≤ k1) (h12 : k1 ≤ k2) (h2 : k2 < n)
    (hne : ∀ i, T i 0 < T i (k1 - 1)) (estimator : String) (he : estimator = "levina" ∨ estimator = "mackay") (mem : ℤ) :
    intrinsicDimension L X k1 k2 estimator "vector" none mem = .ok (.fin (Spec.estimate estimator T k1 k2)) := by
  rw [eval X he (by exact_mod_cast (by omega : 1 ≤ k1)) (by exact_mod_cast h12) (by exact_mod_cast h2) hm]
  simp only [transform, Except.map]
  congr 1
  have hn : 0 < n := by omega
  have hn' : (n : ℝ) ≠ 0 := by positivity
  have hLR : ∀ i k, k1 ≤ k → k ≤ k2 → 0 < Spec.logRatios (T i) k := by
    intro i k hk hk'
    refine logRatios_pos (T i) k (by omega) (neighbours_pos X hX i _ (hT i) 0 (by omega))
      (fun a b hab hb => (hT i).1 a b hab (by omega)) ?_
    exact (hne i).trans_le ((hT i).1 _ _ (by omega) (by omega))
  have hd : ∀ i b, k1 + b ≤ k2 → dhat (fun i => logRow (sqDist X i)) k1 i b
      = .fin ((((k1 + b : ℕ) : ℝ) - 2) / Spec.logRatios (T i) (k1 + b)) := by
    intro i b hb
    have hp : ∀ c, c < k1 + b → 0 < T i c := fun c hc => neighbours_pos X hX i _ (hT i) c (by omega)
    unfold dhat
    have e : ∀ c, c < k1 + b → logRow (sqDist X i) c = Real.log (T i c) := fun c hc =>
      logRow_eq X i (T i) (hT i) c (by omega) (hp c hc)
    simp only
    rw [Finset.sum_congr rfl (fun c hc => e c (Finset.mem_range.mp hc)), e (k1 + b - 1) (by omega),
      logRatios_eq (T i) _ (by omega) hp]
    have := hLR i (k1 + b) (by omega) hb
    simp only [XR.div, neg_eq_zero, this.ne', if_false]
    rw [neg_div_neg_eq]
  have hw : ((k2 : ℤ) + 1 - (k1 : ℤ)).toNat = k2 + 1 - k1 := by omega
  have hwr : ((k2 + 1 - k1 : ℕ) : ℝ) = (k2 : ℝ) + 1 - k1 := by
    rw [Nat.cast_sub (by omega)]
    push_cast
    ring
  have hw0 : ((k2 + 1 - k1 : ℕ) : ℝ) ≠ 0 := by
    have : 0 < k2 + 1 - k1 := by omega
    positivity
  have hIcc : ∀ f : ℕ → ℝ, ∑ k ∈ Finset.Icc k1 k2, f k = ∑ b : Fin (k2 + 1 - k1), f (k1 + b) := fun f =>
    sum_Icc f k1 k2 _ (by omega)
  unfold core Spec.estimate
  rw [hw, Int.toNat_natCast]
  split_ifs
  · unfold levina Spec.levina
    have e : ∀ i, (XR.sum fun b : Fin (k2 + 1 - k1) => dhat (fun i => logRow (sqDist X i)) k1 i b)
        = .fin (∑ k ∈ Finset.Icc k1 k2, ((k : ℝ) - 2) / Spec.logRatios (T i) k) := by
      intro i
      rw [hIcc, ← Cent.sum_fin]
      congr 1
      funext b
      exact hd i b (by omega)
    simp only [e]
    rw [Cent.sum_fin]
    have hnw : ((n * (k2 + 1 - k1) : ℕ) : ℝ) ≠ 0 := by rw [Nat.cast_mul]; exact mul_ne_zero hn' hw0
    simp only [XR.div, hnw, if_false]
    rw [Nat.cast_mul, hwr]
  · unfold mackay Spec.mackay
    have e : ∀ b : Fin (k2 + 1 - k1), XR.div (.fin 1) (XR.mean fun i => XR.div (.fin 1)
        (dhat (fun i => logRow (sqDist X i)) k1 i b))
        = .fin ((((k1 + b : ℕ) : ℝ) - 2) / ((∑ i, Spec.logRatios (T i) (k1 + b)) / n)) := by
      intro b
      have hb : k1 + (b : ℕ) ≤ k2 := by omega
      simp only [hd _ _ hb]
      by_cases hk : k1 + (b : ℕ) = 2
      · have hz : (((k1 + (b : ℕ) : ℕ) : ℝ) - 2) = 0 := by rw [hk]; norm_num
        simp only [hz, zero_div]
        have h0 : XR.div (.fin 1) (.fin 0) = (.pinf : XR ℝ) := by simp [XR.div, XR.infMul]
        rw [h0, XR.mean, sum_pinf hn]
        simp [XR.div]
      · have hz : 0 < (((k1 + (b : ℕ) : ℕ) : ℝ) - 2) := by
          have : 2 < k1 + (b : ℕ) := by omega
          have : (2 : ℝ) < ((k1 + (b : ℕ) : ℕ) : ℝ) := by exact_mod_cast this
          linarith
        have hi : ∀ i, XR.div (.fin 1) (.fin ((((k1 + (b : ℕ) : ℕ) : ℝ) - 2) / Spec.logRatios (T i) (k1 + b)))
            = (.fin (Spec.logRatios (T i) (k1 + b) / (((k1 + (b : ℕ) : ℕ) : ℝ) - 2)) : XR ℝ) := by
          intro i
          have := div_pos hz (hLR i (k1 + b) (by omega) hb)
          simp only [XR.div, this.ne', if_false]
          rw [one_div_div]
        simp only [hi]
        have hS : 0 < ∑ i, Spec.logRatios (T i) (k1 + b) :=
          Finset.sum_pos (fun i _ => hLR i (k1 + b) (by omega) hb) ⟨⟨0, hn⟩, Finset.mem_univ _⟩
        rw [XR.mean, Cent.sum_fin, ← Finset.sum_div]
        have h3 : (∑ i, Spec.logRatios (T i) (k1 + b)) / (((k1 + (b : ℕ) : ℕ) : ℝ) - 2) / n ≠ 0 := by
          have : 0 < (n : ℝ) := by positivity
          positivity
        simp only [XR.div, hn', if_false, h3]
        congr 1
        field_simp
    simp only [e]
    rw [XR.mean, Cent.sum_fin, hIcc]
    simp only [XR.div, hw0, if_false]
    rw [hwr]

/-- C112: under the same conditions the estimate is finite and at least zero, and positive if `k1 ≥ 3`. -/
theorem C112_positive_partial (L : LexSort) {n m : ℕ} (X : Fin n → Fin m → ℝ) (hm : m ≠ 0) (hX : Function.Injective X)
    (T : Fin n → ℕ → ℝ) (hT : ∀ i, Spec.Neighbours X i (T i)) (k1 k2 : ℕ) (h1 : 2 ≤ k1) (h12 : k1 ≤ k2) (h2 : k2 < n)
    (hne : ∀ i, T i 0 < T i (k1 - 1)) (estimator : String) (he : estimator = "levina" ∨ estimator = "mackay") (mem : ℤ) :
    ∃ d : ℝ, intrinsicDimension L X k1 k2 estimator "vector" none mem = .ok (.fin d) ∧ 0 ≤ d ∧ (3 ≤ k1 → 0 < d) := by
  refine ⟨_, C109_formula_partial L X hm hX T hT k1 k2 h1 h12 h2 hne estimator he mem, ?_⟩
  have hn : 0 < n := by omega
  have hn' : (0 : ℝ) < n := by positivity
  have hLR : ∀ i, ∀ k ∈ Finset.Icc k1 k2, 0 < Spec.logRatios (T i) k := by
    intro i k hk
    obtain ⟨hk, hk'⟩ := Finset.mem_Icc.mp hk
    refine logRatios_pos (T i) k (by omega) (neighbours_pos X hX i _ (hT i) 0 (by omega))
      (fun a b hab hb => (hT i).1 a b hab (by omega)) ?_
    exact (hne i).trans_le ((hT i).1 _ _ (by omega) (by omega))
  have hw : (0 : ℝ) < (k2 : ℝ) + 1 - k1 := by
    have : (k1 : ℝ) ≤ k2 := by exact_mod_cast h12
    linarith
  have hk0 : ∀ k ∈ Finset.Icc k1 k2, (0 : ℝ) ≤ (k : ℝ) - 2 := by
    intro k hk
    have : 2 ≤ k := h1.trans (Finset.mem_Icc.mp hk).1
    have : (2 : ℝ) ≤ k := by exact_mod_cast this
    linarith
  have hk0' : 3 ≤ k1 → ∀ k ∈ Finset.Icc k1 k2, (0 : ℝ) < (k : ℝ) - 2 := by
    intro h3 k hk
    have : 3 ≤ k := h3.trans (Finset.mem_Icc.mp hk).1
    have : (3 : ℝ) ≤ k := by exact_mod_cast this
    linarith
  have hne1 : (Finset.Icc k1 k2).Nonempty := ⟨k1, Finset.mem_Icc.mpr ⟨le_rfl, h12⟩⟩
  have hne2 : (Finset.univ : Finset (Fin n)).Nonempty := ⟨⟨0, hn⟩, Finset.mem_univ _⟩
  unfold Spec.estimate Spec.levina Spec.mackay
  split_ifs
  · refine ⟨div_nonneg (Finset.sum_nonneg fun i _ => Finset.sum_nonneg fun k hk => div_nonneg (hk0 k hk) (hLR i k hk).le)
      (mul_pos hn' hw).le, fun h3 => ?_⟩
    exact div_pos (Finset.sum_pos (fun i _ => Finset.sum_pos (fun k hk => div_pos (hk0' h3 k hk) (hLR i k hk)) hne1) hne2)
      (mul_pos hn' hw)
  · have hS : ∀ k ∈ Finset.Icc k1 k2, 0 < (∑ i, Spec.logRatios (T i) k) / n := fun k hk =>
      div_pos (Finset.sum_pos (fun i _ => hLR i k hk) hne2) hn'
    refine ⟨div_nonneg (Finset.sum_nonneg fun k hk => div_nonneg (hk0 k hk) (hS k hk).le) hw.le, fun h3 => ?_⟩
    exact div_pos (Finset.sum_pos (fun k hk => div_pos (hk0' h3 k hk) (hS k hk)) hne1) hw

theorem add_notFinite {a b : XR ℝ} (h : a.isFinite = false ∨ b.isFinite = false) : (XR.add a b).isFinite = false := by
  cases a <;> cases b <;> simp_all [XR.add, XR.isFinite]

theorem sum_notFinite {k : ℕ} (f : Fin k → XR ℝ) (c : Fin k) (h : (f c).isFinite = false) : (XR.sum f).isFinite = false := by
  have key : ∀ (l : List (Fin k)) (a : XR ℝ), (a.isFinite = false ∨ c ∈ l) →
      (l.foldl (fun acc c => XR.add acc (f c)) a).isFinite = false := by
    intro l
    induction l with
    | nil => intro a h; simpa using h
    | cons b l ih =>
      intro a ha
      rw [List.foldl_cons]
      refine ih _ ?_
      rcases ha with ha | ha
      · exact Or.inl (add_notFinite (Or.inl ha))
      · rcases List.mem_cons.mp ha with rfl | ha
        · exact Or.inl (add_notFinite (Or.inr h))
        · exact Or.inr ha
  exact key _ _ (Or.inr (List.mem_finRange c))

theorem div_notFinite {a : XR ℝ} {x : ℝ} (h : a.isFinite = false) : (XR.div a (.fin x)).isFinite = false := by
  cases a <;> simp_all [XR.div, XR.isFinite] <;> split_ifs <;> simp

/-- C112: `k1 = 1` is accepted, but the estimate is then never a finite number. -/
theorem C112_violated (L : LexSort) {n m : ℕ} (X : Fin n → Fin m → ℝ) (hm : m ≠ 0) (k2 : ℤ) (h1 : 1 ≤ k2) (h2 : k2 < n)
    (estimator : String) (he : estimator = "levina" ∨ estimator = "mackay") (mem : ℤ) :
    ∃ r, intrinsicDimension L X 1 k2 estimator "vector" none mem = .ok r ∧ r.isFinite = false := by
  refine ⟨_, (eval X he le_rfl h1 h2 hm none mem).trans rfl, ?_⟩
  have hd : ∀ i, dhat (fun i => logRow (sqDist X i)) 1 i 0 = .pinf := by
    intro i
    simp [dhat, XR.div, XR.infMul]
    norm_num
  have hn : 0 < n := by omega
  have hw : 0 < (k2 + 1 - 1).toNat := by omega
  unfold core
  split_ifs
  · unfold levina
    exact div_notFinite (sum_notFinite _ ⟨0, hn⟩ (sum_notFinite _ ⟨0, hw⟩ (by
      show (dhat _ 1 _ 0).isFinite = false
      rw [hd]; rfl)))
  · unfold mackay XR.mean
    refine div_notFinite (sum_notFinite _ ⟨0, hw⟩ ?_)
    show (XR.div (.fin 1) (XR.div (XR.sum fun i => XR.div (.fin 1) (dhat (fun i => logRow (sqDist X i)) 1 i 0)) _)).isFinite
      = false
    have e : ∀ i, XR.div (.fin 1) (dhat (fun i => logRow (sqDist X i)) 1 i 0) = .fin 0 := fun i => by rw [hd]; rfl
    simp only [e]
    rw [Cent.sum_fin, Finset.sum_const_zero]
    have hn' : (n : ℝ) ≠ 0 := by positivity
    simp [XR.div, hn', XR.infMul, XR.isFinite]

/-- Four points on a line. -/
def line4 : Fin 4 → Fin 1 → ℝ := ![![0], ![1], ![10], ![100]]

theorem line4_dist (i j : Fin 4) : Spec.dist (line4 i) (line4 j) = |line4 i 0 - line4 j 0| := by
  unfold Spec.dist
  rw [Fin.sum_univ_one, Real.sqrt_sq_eq_abs]

/-- Sorted distances. -/
def line4T : Fin 4 → ℕ → ℝ := fun i c => (![![1, 10, 100], ![1, 9, 99], ![9, 10, 90], ![90, 99, 100]] : Fin 4 → Fin 3 → ℝ) i
  (Fin.ofNat 3 c)

theorem line4_neighbours (i : Fin 4) : Spec.Neighbours line4 i (line4T i) := by
  have hv : line4 0 0 = 0 ∧ line4 1 0 = 1 ∧ line4 2 0 = 10 ∧ line4 3 0 = 100 := ⟨rfl, rfl, rfl, rfl⟩
  have hm : ∀ i, line4T i 0 ≤ line4T i 1 ∧ line4T i 1 ≤ line4T i 2 := by
    intro i
    fin_cases i
    · exact ⟨(by norm_num : (1 : ℝ) ≤ 10), (by norm_num : (10 : ℝ) ≤ 100)⟩
    · exact ⟨(by norm_num : (1 : ℝ) ≤ 9), (by norm_num : (9 : ℝ) ≤ 99)⟩
    · exact ⟨(by norm_num : (9 : ℝ) ≤ 10), (by norm_num : (10 : ℝ) ≤ 90)⟩
    · exact ⟨(by norm_num : (90 : ℝ) ≤ 99), (by norm_num : (99 : ℝ) ≤ 100)⟩
  have hr : Multiset.range (4 - 1) = {0, 1, 2} := by decide
  constructor
  · intro a b hab hb
    have : b < 3 := by omega
    interval_cases b <;> interval_cases a <;> first | exact le_rfl | exact (hm i).1 | exact (hm i).2 |
      exact (hm i).1.trans (hm i).2
  · simp only [line4_dist]
    rw [hr]
    have e0 : (Finset.univ.erase (0 : Fin 4)).val = {1, 2, 3} := by decide
    have e1 : (Finset.univ.erase (1 : Fin 4)).val = {0, 2, 3} := by decide
    have e2 : (Finset.univ.erase (2 : Fin 4)).val = {1, 0, 3} := by decide
    have e3 : (Finset.univ.erase (3 : Fin 4)).val = {2, 1, 0} := by decide
    fin_cases i
    · show _ = Multiset.map _ (Finset.univ.erase (0 : Fin 4)).val
      rw [e0]
      show ({1, 10, 100} : Multiset ℝ) = {|line4 0 0 - line4 1 0|, |line4 0 0 - line4 2 0|, |line4 0 0 - line4 3 0|}
      norm_num [hv]
    · show _ = Multiset.map _ (Finset.univ.erase (1 : Fin 4)).val
      rw [e1]
      show ({1, 9, 99} : Multiset ℝ) = {|line4 1 0 - line4 0 0|, |line4 1 0 - line4 2 0|, |line4 1 0 - line4 3 0|}
      norm_num [hv]
    · show _ = Multiset.map _ (Finset.univ.erase (2 : Fin 4)).val
      rw [e2]
      show ({9, 10, 90} : Multiset ℝ) = {|line4 2 0 - line4 1 0|, |line4 2 0 - line4 0 0|, |line4 2 0 - line4 3 0|}
      norm_num [hv]
    · show _ = Multiset.map _ (Finset.univ.erase (3 : Fin 4)).val
      rw [e3]
      show ({90, 99, 100} : Multiset ℝ) = {|line4 3 0 - line4 2 0|, |line4 3 0 - line4 1 0|, |line4 3 0 - line4 0 0|}
      norm_num [hv]

theorem line4_injective : Function.Injective line4 := by
  intro i j h
  have hv : ∀ i, line4 i 0 = ((![0, 1, 10, 100] : Fin 4 → ℕ) i : ℝ) := by
    intro i
    fin_cases i
    · exact (by norm_num : (0 : ℝ) = ((0 : ℕ) : ℝ))
    · exact (by norm_num : (1 : ℝ) = ((1 : ℕ) : ℝ))
    · exact (by norm_num : (10 : ℝ) = ((10 : ℕ) : ℝ))
    · exact (by norm_num : (100 : ℝ) = ((100 : ℕ) : ℝ))
  have h0 := congrFun h 0
  rw [hv, hv] at h0
  exact (by decide : Function.Injective (![0, 1, 10, 100] : Fin 4 → ℕ)) (Nat.cast_injective h0)

theorem line4_different (i : Fin 4) : line4T i 0 < line4T i (3 - 1) := by
  fin_cases i
  · exact (by norm_num : (1 : ℝ) < 100)
  · exact (by norm_num : (1 : ℝ) < 99)
  · exact (by norm_num : (9 : ℝ) < 90)
  · exact (by norm_num : (90 : ℝ) < 100)

/-- C113: the claim that the estimate is an integer does not hold. -/
theorem C113_violated (L : LexSort) (mem : ℤ) : ∃ d : ℝ,
    intrinsicDimension L line4 3 3 "mackay" "vector" none mem = .ok (.fin d) ∧ ∀ z : ℤ, d ≠ z := by
  refine ⟨_, C109_formula_partial L line4 (by norm_num) line4_injective line4T line4_neighbours 3 3 (by norm_num) le_rfl
    (by norm_num) line4_different "mackay" (Or.inr rfl) mem, ?_⟩
  have hlr : ∀ i, Spec.logRatios (line4T i) 3 = Real.log (line4T i 2 / line4T i 0) + Real.log (line4T i 2 / line4T i 1) := by
    intro i
    unfold Spec.logRatios
    rw [show 3 - 1 = 2 from rfl, Finset.sum_range_succ, Finset.sum_range_one]
  have hpos : ∀ i, 0 < Spec.logRatios (line4T i) 3 := by
    intro i
    refine logRatios_pos (line4T i) 3 (by norm_num) (neighbours_pos _ line4_injective i _ (line4_neighbours i) 0 (by norm_num))
      (fun a b hab hb => (line4_neighbours i).1 a b hab (by omega)) (line4_different i)
  have h0 : 4 < Spec.logRatios (line4T 0) 3 := by
    rw [hlr]
    show 4 < Real.log (100 / 1) + Real.log (100 / 10)
    have e1 : Real.log (100 / 1) = 2 * Real.log 10 := by
      rw [show (100 / 1 : ℝ) = 10 ^ 2 by norm_num, Real.log_pow]
      norm_num
    have e2 : Real.log (100 / 10 : ℝ) = Real.log 10 := by norm_num
    have h10 : 3 / 2 < Real.log 10 := by
      rw [Real.lt_log_iff_exp_lt (by norm_num)]
      have h1 := Real.exp_one_lt_d9
      have h2 : Real.exp (3 / 2) ≤ Real.exp 1 * Real.exp 1 := by
        rw [← Real.exp_add]
        exact Real.exp_le_exp.mpr (by norm_num)
      have h3 : Real.exp 1 * Real.exp 1 < 2.7182818286 * 2.7182818286 :=
        mul_lt_mul'' h1 h1 (Real.exp_pos _).le (Real.exp_pos _).le
      linarith
    rw [e1, e2]
    linarith
  have hS : 4 < ∑ i, Spec.logRatios (line4T i) 3 := by
    rw [Fin.sum_univ_four]
    linarith [hpos 1, hpos 2, hpos 3]
  unfold Spec.estimate Spec.mackay
  rw [if_neg (by decide), Finset.Icc_self, Finset.sum_singleton]
  intro z hz
  have hval : ((((3 : ℕ) : ℝ) - 2) / ((∑ i, Spec.logRatios (line4T i) 3) / ((4 : ℕ) : ℝ))) / (((3 : ℕ) : ℝ) + 1 - ((3 : ℕ) : ℝ))
      = 4 / ∑ i, Spec.logRatios (line4T i) 3 := by
    push_cast
    field_simp
    norm_num
  rw [hval] at hz
  have hz0 : (0 : ℝ) < z := by rw [← hz]; exact div_pos (by norm_num) (by linarith)
  have hz1 : (z : ℝ) < 1 := by rw [← hz, div_lt_one (by linarith)]; exact hS
  have a : 0 < z := by exact_mod_cast hz0
  have b : z < 1 := by exact_mod_cast hz1
  omega

/-- C114: the claim that distance matrices are supported does not hold: with valid parameters they are always rejected. -/
theorem C114_violated (L : LexSort) {n : ℕ} (D : Fin n → Fin n → ℝ) (k1 k2 : ℤ) (h1 : 1 ≤ k1) (h12 : k1 ≤ k2) (h2 : k2 < n)
    (estimator : String) (he : estimator = "levina" ∨ estimator = "mackay") (trafo : Option String) (mem : ℤ) :
    intrinsicDimension L D k1 k2 estimator "distance" trafo mem = .error .notImplementedError := by
  unfold intrinsicDimension
  rw [if_neg (not_not.mpr he), if_neg (by omega), if_neg (by decide), if_pos (Or.inl rfl)]

example : Function.Injective line4 ∧ ∀ i, line4T i 0 < line4T i (3 - 1) := ⟨line4_injective, line4_different⟩

end HubToolbox.IntDim
