import Verif.Dist.Model
import Verif.Dist.Spec
import Verif.Cent.Lemmas
import Mathlib.Algebra.Order.BigOperators.Ring.Finset
import Mathlib.Analysis.MeanInequalities

/-!
# Properties of `cosine_distance`, `euclidean_distance`, `lp_norm` and `sample_distance`
-/

set_option autoImplicit false

namespace HubToolbox.Dist

open HubToolbox

/-! ### Cosine distance -/

theorem norms_eq {n d : ℕ} (X : Fin n → Fin d → ℝ) (i : Fin n) : norms X i = .fin (Spec.vecNorm (X i)) := by
  unfold norms
  rw [Cent.sum_fin]
  change (if _ then _ else _) = _
  rw [if_neg (not_lt.2 (Finset.sum_nonneg fun f _ => sq_nonneg _))]
  rfl

theorem norm2_ne_zero {d : ℕ} {x : Fin d → ℝ} (hx : x ≠ 0) : 0 < Spec.vecNorm x := by
  unfold Spec.vecNorm
  apply Real.sqrt_pos.2
  obtain ⟨f, hf⟩ := Function.ne_iff.1 hx
  exact Finset.sum_pos' (fun f _ => sq_nonneg _) ⟨f, Finset.mem_univ _, sq_pos_of_ne_zero hf⟩

theorem norm2_zero {d : ℕ} : Spec.vecNorm (0 : Fin d → ℝ) = 0 := by
  simp [Spec.vecNorm]

theorem cosine_abs_le {d : ℕ} (x y : Fin d → ℝ) : |Spec.cosAngle x y| ≤ 1 := by
  unfold Spec.cosAngle
  have h := Finset.sum_mul_sq_le_sq_mul_sq Finset.univ x y
  have h1 : |∑ f, x f * y f| ≤ Spec.vecNorm x * Spec.vecNorm y := by
    unfold Spec.vecNorm
    rw [← Real.sqrt_mul (Finset.sum_nonneg fun f _ => sq_nonneg _)]
    exact Real.abs_le_sqrt h
  rw [abs_div, abs_of_nonneg (mul_nonneg (Real.sqrt_nonneg _) (Real.sqrt_nonneg _) : 0 ≤ Spec.vecNorm x * Spec.vecNorm y)]
  exact div_le_one_of_le₀ h1 (mul_nonneg (Real.sqrt_nonneg _) (Real.sqrt_nonneg _))

theorem cosineRaw_eq {n d : ℕ} (X : Fin n → Fin d → ℝ) (i j : Fin n) (hi : X i ≠ 0) (hj : X j ≠ 0) :
    cosineRaw X i j = .fin (1 - Spec.cosAngle (X i) (X j)) := by
  have h1 := norm2_ne_zero hi
  have h2 := norm2_ne_zero hj
  have hs : XR.sum (fun f => XR.mul (XR.div (.fin (X i f)) (norms X i)) (XR.div (.fin (X j f)) (norms X j))) =
      .fin (Spec.cosAngle (X i) (X j)) := by
    rw [norms_eq, norms_eq]
    have : (fun f => XR.mul (XR.div (.fin (X i f)) (.fin (Spec.vecNorm (X i)))) (XR.div (.fin (X j f)) (.fin (Spec.vecNorm (X j))))) =
        (fun f => (.fin (X i f / Spec.vecNorm (X i) * (X j f / Spec.vecNorm (X j))) : XR ℝ)) := by
      funext f
      simp only [XR.div, if_neg h1.ne', if_neg h2.ne', XR.mul]
    rw [this, Cent.sum_fin]
    unfold Spec.cosAngle
    rw [Finset.sum_div]
    congr 1
    refine Finset.sum_congr rfl (fun f _ => ?_)
    rw [div_mul_div_comm]
  unfold cosineRaw
  simp only [hs]
  have hv : XR.sub (.fin 1) (.fin (Spec.cosAngle (X i) (X j))) = .fin (1 - Spec.cosAngle (X i) (X j)) := by
    change XR.fin (1 + - _) = _
    rw [sub_eq_add_neg]
  rw [hv, if_neg]
  have := (abs_le.1 (cosine_abs_le (X i) (X j))).2
  simp only [XR.flt]
  intro h
  linarith

theorem cosine_symm {d : ℕ} (x y : Fin d → ℝ) : Spec.cosAngle x y = Spec.cosAngle y x := by
  unfold Spec.cosAngle
  rw [mul_comm (Spec.vecNorm x)]
  congr 1
  exact Finset.sum_congr rfl fun f _ => mul_comm _ _

theorem cosine_self {d : ℕ} {x : Fin d → ℝ} (hx : x ≠ 0) : Spec.cosAngle x x = 1 := by
  have h := norm2_ne_zero hx
  unfold Spec.cosAngle
  have : ∑ f, x f * x f = Spec.vecNorm x * Spec.vecNorm x := by
    unfold Spec.vecNorm
    rw [Real.mul_self_sqrt (Finset.sum_nonneg fun f _ => sq_nonneg _)]
    exact Finset.sum_congr rfl fun f _ => (sq _).symm
  rw [this, div_self (mul_pos h h).ne']

/-- C143 holds for vectors other than zero: the result is one minus the cosine of the angle, between 0 and 2. -/
theorem C143_value_partial {n d : ℕ} (X : Fin n → Fin d → ℝ) (i j : Fin n) (hi : X i ≠ 0) (hj : X j ≠ 0) :
    ∃ v, cosineDistance X i j = .fin v ∧ v = 1 - Spec.cosAngle (X i) (X j) ∧ 0 ≤ v ∧ v ≤ 2 := by
  have hb := abs_le.1 (cosine_abs_le (X i) (X j))
  refine ⟨_, ?_, rfl, by linarith, by linarith⟩
  unfold cosineDistance triu1
  rcases lt_trichotomy i j with h | h | h
  · rw [if_pos h, if_neg (lt_asymm h), cosineRaw_eq X i j hi hj]
    change XR.fin _ = _
    rw [add_zero]
  · subst h
    rw [if_neg (lt_irrefl _), cosine_self hi]
    change XR.fin _ = _
    norm_num
  · rw [if_neg (lt_asymm h), if_pos h, cosineRaw_eq X j i hj hi, cosine_symm]
    change XR.fin _ = _
    rw [zero_add]

/-- C143: the matrix is symmetric with zero diagonal, for all vectors. -/
theorem C143_symmetric {n d : ℕ} (X : Fin n → Fin d → ℝ) (i j : Fin n) :
    cosineDistance X i j = cosineDistance X j i ∧ cosineDistance X i i = .fin 0 := by
  constructor
  · unfold cosineDistance triu1
    rcases lt_trichotomy i j with h | h | h
    · rw [if_pos h, if_neg (lt_asymm h)]
      cases cosineRaw X i j <;> simp [XR.add]
    · subst h; rfl
    · rw [if_neg (lt_asymm h), if_pos h]
      cases cosineRaw X j i <;> simp [XR.add]
  · unfold cosineDistance triu1
    rw [if_neg (lt_irrefl _)]
    change XR.fin _ = _
    rw [add_zero]

/-- C143: the lengths of the vectors are irrelevant. -/
theorem C143_scale {n d : ℕ} (X : Fin n → Fin d → ℝ) (hX : ∀ i, X i ≠ 0) (c : Fin n → ℝ) (hc : ∀ i, 0 < c i) :
    cosineDistance (fun i f => c i * X i f) = cosineDistance X := by
  have hX' : ∀ i, (fun f => c i * X i f) ≠ 0 := by
    intro i h
    apply hX i
    funext f
    have := congrFun h f
    simpa [(hc i).ne'] using this
  have hn : ∀ i, Spec.vecNorm (fun f => c i * X i f) = c i * Spec.vecNorm (X i) := by
    intro i
    unfold Spec.vecNorm
    simp only [mul_pow]
    rw [← Finset.mul_sum, Real.sqrt_mul (sq_nonneg _), Real.sqrt_sq (hc i).le]
  funext i j
  obtain ⟨v, h, hv, _⟩ := C143_value_partial (fun i f => c i * X i f) i j (hX' i) (hX' j)
  obtain ⟨v', h', hv', _⟩ := C143_value_partial X i j (hX i) (hX j)
  rw [h, h', hv, hv']
  congr 2
  unfold Spec.cosAngle
  rw [hn, hn]
  have : ∑ f, c i * X i f * (c j * X j f) = c i * c j * ∑ f, X i f * X j f := by
    rw [Finset.mul_sum]
    exact Finset.sum_congr rfl fun f _ => by ring
  rw [this, show c i * Spec.vecNorm (X i) * (c j * Spec.vecNorm (X j)) = c i * c j * (Spec.vecNorm (X i) * Spec.vecNorm (X j)) by ring,
    mul_div_mul_left _ _ (mul_pos (hc i) (hc j)).ne']

/-- C143 is violated for zero vectors: their distance to every other vector is `nan`. -/
theorem C143_violated {n d : ℕ} (hd : 0 < d) (X : Fin n → Fin d → ℝ) (i j : Fin n) (hij : i ≠ j) (hi : X i = 0) :
    cosineDistance X i j = .nan := by
  have key : ∀ a b, X a = 0 ∨ X b = 0 → cosineRaw X a b = .nan := by
    intro a b hab
    have hs : XR.sum (fun f => XR.mul (XR.div (.fin (X a f)) (norms X a)) (XR.div (.fin (X b f)) (norms X b))) = .nan := by
      refine Cent.sum_nan _ ⟨0, hd⟩ ?_
      have hz : ∀ c, X c = 0 → XR.div (.fin (X c ⟨0, hd⟩)) (norms X c) = .nan := by
        intro c hc
        rw [norms_eq, hc, norm2_zero]
        simp [XR.div, XR.infMul]
      rcases hab with h | h
      · rw [hz a h]; rfl
      · rw [hz b h]
        cases XR.div (.fin (X a ⟨0, hd⟩)) (norms X a) <;> rfl
    unfold cosineRaw
    simp only [hs]
    rfl
  unfold cosineDistance triu1
  rcases lt_or_gt_of_ne hij with h | h
  · rw [if_pos h, if_neg (lt_asymm h), key i j (Or.inl hi)]
    rfl
  · rw [if_neg (lt_asymm h), if_pos h, key j i (Or.inr hi)]
    rfl

-- Both cases occur.
example : ∃ X : Fin 2 → Fin 2 → ℝ, (X 0 ≠ 0 ∧ X 1 ≠ 0) ∧ X 0 ≠ X 1 :=
  ⟨fun i f => if i = f then 1 else 0, ⟨fun h => by simpa using congrFun h 0, fun h => by simpa using congrFun h 1⟩,
    fun h => by simpa using congrFun h 0⟩

/-! ### Minkowski distances -/

theorem minkowski_one {d : ℕ} (x y : Fin d → ℝ) : Spec.minkowski 1 x y = ∑ f, |x f - y f| := by
  simp [Spec.minkowski]

theorem minkowski_two {d : ℕ} (x y : Fin d → ℝ) : Spec.minkowski 2 x y = √(∑ f, (x f - y f) ^ 2) := by
  unfold Spec.minkowski
  rw [Real.sqrt_eq_rpow]
  congr 1
  refine Finset.sum_congr rfl fun f _ => ?_
  rw [show (2 : ℝ) = ((2 : ℕ) : ℝ) by norm_num, Real.rpow_natCast, sq_abs]

/-- C144: whichever implementation is chosen, `lp_norm` is the Minkowski distance of order `p`. -/
theorem C144_value {n m d : ℕ} (X : Fin n → Fin d → ℝ) (Y : Fin m → Fin d → ℝ) (p : ℝ) (hp : 1 ≤ p) :
    lpNorm X Y (some p) = .ok (fun i j => Spec.minkowski p (X i) (Y j)) := by
  unfold lpNorm
  simp only
  by_cases h1 : p = 1
  · subst h1
    rw [if_pos rfl]
    refine congrArg Except.ok (funext fun i => funext fun j => ?_)
    rw [minkowski_one]
    rfl
  · by_cases h2 : p = 2
    · subst h2
      rw [if_neg h1, if_pos rfl]
      refine congrArg Except.ok (funext fun i => funext fun j => ?_)
      rw [minkowski_two]
      unfold pairwiseL2
      have : ∑ f, X i f * X i f - 2 * ∑ f, X i f * Y j f + ∑ f, Y j f * Y j f = ∑ f, (X i f - Y j f) ^ 2 := by
        rw [Finset.mul_sum, ← Finset.sum_sub_distrib, ← Finset.sum_add_distrib]
        exact Finset.sum_congr rfl fun f _ => by ring
      rw [this, max_eq_left (Finset.sum_nonneg fun f _ => sq_nonneg _)]
    · rw [if_neg h1, if_neg h2, if_neg (not_lt.2 hp)]
      rfl

/-- C144: `lp_norm` of a set with itself is a metric: not negative, symmetric, zero exactly between equal vectors, and
satisfying the triangle inequality. -/
theorem C144_metric {n d : ℕ} (X : Fin n → Fin d → ℝ) (p : ℝ) (hp : 1 ≤ p) :
    ∃ D, lpNorm X X (some p) = .ok D ∧ (∀ i j, 0 ≤ D i j) ∧ (∀ i j, D i j = D j i) ∧ (∀ i j, D i j = 0 ↔ X i = X j) ∧
      ∀ i j k, D i k ≤ D i j + D j k := by
  have hp0 : 0 < p := by linarith
  refine ⟨_, C144_value X X p hp, ?_, ?_, ?_, ?_⟩
  · intro i j
    exact Real.rpow_nonneg (Finset.sum_nonneg fun f _ => Real.rpow_nonneg (abs_nonneg _) _) _
  · intro i j
    simp only [Spec.minkowski, abs_sub_comm]
  · intro i j
    simp only [Spec.minkowski]
    have hnn : ∀ f ∈ Finset.univ, 0 ≤ |X i f - X j f| ^ p := fun f _ => Real.rpow_nonneg (abs_nonneg _) _
    rw [Real.rpow_eq_zero (Finset.sum_nonneg hnn) (by positivity), Finset.sum_eq_zero_iff_of_nonneg hnn]
    constructor
    · intro h
      funext f
      have := h f (Finset.mem_univ f)
      rw [Real.rpow_eq_zero (abs_nonneg _) hp0.ne', abs_eq_zero] at this
      linarith
    · intro h f _
      rw [h, sub_self, abs_zero, Real.zero_rpow hp0.ne']
  · intro i j k
    have h := Real.Lp_add_le Finset.univ (fun f => X i f - X j f) (fun f => X j f - X k f) hp
    simp only [sub_add_sub_cancel] at h
    exact h

/-- C144: `euclidean_distance` is `lp_norm` with `p = 2`. -/
theorem C144_euclidean {n d : ℕ} (X : Fin n → Fin d → ℝ) : lpNorm X X (some 2) = .ok (euclideanDistance X) := by
  rw [C144_value X X 2 (by norm_num)]
  refine congrArg Except.ok (funext fun i => funext fun j => ?_)
  rw [minkowski_two]
  unfold euclideanDistance
  simp only
  rcases lt_trichotomy i j with h | h | h
  · rw [if_pos h]
  · subst h
    simp
  · rw [if_neg (lt_asymm h), if_pos h]
    congr 1
    exact Finset.sum_congr rfl fun f _ => by ring

/-- C144: without `p`, and for `p < 1`, `ValueError` is raised. -/
theorem C144_rejects {n m d : ℕ} (X : Fin n → Fin d → ℝ) (Y : Fin m → Fin d → ℝ) (p : Option ℝ) (hp : ∀ q, p = some q → q < 1) :
    lpNorm X Y p = .error .valueError := by
  cases p with
  | none => rfl
  | some q =>
    have := hp q rfl
    unfold lpNorm
    simp only
    rw [if_neg this.ne, if_neg (by linarith), if_pos this]

/-! ### Sampled distances -/

/-- C145: the columns of the result are the distances to the objects in the index array, whatever the sample is. -/
theorem C145_columns {P K : Type} {n : ℕ} (split : ℤ → Py (List (Fin n))) (dist : P → P → K) (X : Fin n → P)
    (size : SampleSize) (ys : List (Fin n)) (h : split (sampleSize n size) = .ok ys) :
    ∃ out, sampleDistance n split dist X size "a" = .ok out ∧ out.1 = ys.length ∧
      (List.ofFn out.2.2 = ys) ∧ ∀ i j, out.2.1 i j = dist (X i) (X (out.2.2 j)) := by
  refine ⟨⟨ys.length, fun i j => dist (X i) (X (ys.get j)), fun j => ys.get j⟩, ?_, rfl, ?_, fun _ _ => rfl⟩
  · unfold sampleDistance
    rw [if_neg (not_not.2 rfl), if_pos rfl, h]
  · exact List.ofFn_get ys

/-- C145: other strategies and wrong numbers of labels are rejected. -/
theorem C145_rejects {P K : Type} {n l : ℕ} (split : ℤ → Py (List (Fin n))) (dist : P → P → K) (X : Fin n → P)
    (size : SampleSize) (strategy : String) :
    (l ≠ n → sampleDistance l split dist X size strategy = .error .typeError) ∧
      (strategy ≠ "a" → sampleDistance n split dist X size strategy = .error .notImplementedError) := by
  constructor
  · intro h
    unfold sampleDistance
    rw [if_pos h]
  · intro h
    unfold sampleDistance
    rw [if_neg (not_not.2 rfl), if_neg h]

/-- C145 holds for python's own numbers: integers are numbers of objects, fractions are rounded down. -/
theorem C145_size_partial (n : ℕ) :
    (∀ s, sampleSize n (.int s) = s) ∧ ∀ x : ℚ, 0 ≤ x → x ≤ 1 →
      0 ≤ sampleSize n (.float x) ∧ sampleSize n (.float x) ≤ n ∧ ((sampleSize n (.float x) : ℤ) : ℚ) ≤ x * n ∧
        x * n < sampleSize n (.float x) + 1 := by
  refine ⟨fun _ => rfl, fun x h0 h1 => ?_⟩
  have hx : (0 : ℚ) ≤ x * n := mul_nonneg h0 (Nat.cast_nonneg n)
  have hfl : sampleSize n (.float x) = ⌊x * n⌋ := by
    change Int.tdiv _ _ = _
    rw [Int.tdiv_eq_ediv_of_nonneg (Rat.num_nonneg.2 hx), ← Rat.floor_def']
  rw [hfl]
  refine ⟨Int.floor_nonneg.2 hx, ?_, Int.floor_le _, Int.lt_floor_add_one _⟩
  have : (⌊x * n⌋ : ℚ) ≤ n := (Int.floor_le _).trans (by nlinarith [Nat.cast_nonneg (α := ℚ) n])
  exact_mod_cast this

/-- C145 is violated for integers of numpy: they are multiplied with the number of objects like fractions, so that for every
data set with at least two objects even a sample of one object is as large as the whole set. -/
theorem C145_numpy_violated (n : ℕ) (hn : 2 ≤ n) (s : ℤ) (hs : 1 ≤ s) :
    sampleSize n (.npInt s) ≠ s ∧ (n : ℤ) ≤ sampleSize n (.npInt s) := by
  change s * n ≠ s ∧ (n : ℤ) ≤ s * n
  constructor
  · intro h
    have : s * ((n : ℤ) - 1) = 0 := by linarith
    rcases mul_eq_zero.1 this with h | h <;> omega
  · nlinarith

example : sampleSize 10 (.float (1/4)) = 2 := by decide +kernel

end HubToolbox.Dist
