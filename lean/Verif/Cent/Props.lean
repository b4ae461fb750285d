import Verif.Cent.Lemmas

/-!
# Properties of `centering` and `dis_sim_global`
-/

set_option autoImplicit false

namespace HubToolbox.Cent

open HubToolbox

variable {K : Type} [Field K] [LinearOrder K] [IsStrictOrderedRing K]

/-! ### C37: vectors -/

/-- C37: the centroid of the training vectors gets subtracted from every vector. -/
theorem C37_formula {n m : ℕ} (X : Fin n → Fin m → K) (mask : Option (List ℤ))
    (ht : (Spec.training n mask).Nonempty) :
    centering X "vector" mask = .ok (fun i f => .fin (X i f - Spec.centroid (Spec.training n mask) X f)) :=
  centering_vector X mask ht

/-- C37: without training vectors there is no centroid. -/
theorem C37_no_training {n m : ℕ} (X : Fin n → Fin m → K) (mask : Option (List ℤ))
    (ht : ¬ (Spec.training n mask).Nonempty) : centering X "vector" mask = .ok (fun _ _ => .nan) :=
  centering_vector_nan X mask ht

/-- The number of training vectors is not zero. -/
theorem card_ne {ι : Type} {S : Finset ι} (h : S.Nonempty) : (S.card : K) ≠ 0 := by
  rw [Nat.cast_ne_zero]
  exact h.card_pos.ne'

/-- A result of finite values is the training centroid subtracted. -/
theorem vector_finite {n m : ℕ} {X Z : Fin n → Fin m → K} {mask : Option (List ℤ)}
    (ht : (Spec.training n mask).Nonempty) (h : centering X "vector" mask = .ok (fun i f => .fin (Z i f))) (i : Fin n)
    (f : Fin m) : Z i f = X i f - Spec.centroid (Spec.training n mask) X f := by
  rw [centering_vector X mask ht] at h
  have := congrFun (congrFun (Except.ok.inj h) i) f
  exact (XR.fin.inj this).symm

/-- C37: the mean of the centred training vectors is zero. -/
theorem C37_zero_mean {n m : ℕ} {X Z : Fin n → Fin m → K} {mask : Option (List ℤ)}
    (ht : (Spec.training n mask).Nonempty) (h : centering X "vector" mask = .ok (fun i f => .fin (Z i f)))
    (f : Fin m) : Spec.centroid (Spec.training n mask) Z f = 0 := by
  have hc := card_ne (K := K) ht
  have hz : ∀ i, Z i f = X i f - Spec.centroid (Spec.training n mask) X f := fun i => vector_finite ht h i f
  unfold Spec.centroid at hz ⊢
  rw [Finset.sum_congr rfl (fun i _ => hz i), Finset.sum_sub_distrib, Finset.sum_const, nsmul_eq_mul]
  field_simp
  ring

/-- C37: centering twice changes nothing. -/
theorem C37_idempotent {n m : ℕ} {X Z : Fin n → Fin m → K} {mask : Option (List ℤ)}
    (ht : (Spec.training n mask).Nonempty) (h : centering X "vector" mask = .ok (fun i f => .fin (Z i f))) :
    centering Z "vector" mask = .ok (fun i f => .fin (Z i f)) := by
  rw [centering_vector Z mask ht]
  simp only [C37_zero_mean ht h, sub_zero]

/-- C37: translation of all vectors changes nothing. -/
theorem C37_translation {n m : ℕ} (X : Fin n → Fin m → K) (t : Fin m → K) (mask : Option (List ℤ)) :
    centering (fun i f => X i f + t f) "vector" mask = centering X "vector" mask := by
  by_cases ht : (Spec.training n mask).Nonempty
  · rw [centering_vector _ mask ht, centering_vector _ mask ht]
    congr 1
    funext i f
    congr 1
    have hc := card_ne (K := K) ht
    unfold Spec.centroid
    rw [Finset.sum_add_distrib, Finset.sum_const, nsmul_eq_mul]
    field_simp
    ring
  · rw [centering_vector_nan _ mask ht, centering_vector_nan _ mask ht]

/-- C37: differences of vectors stay. -/
theorem C37_differences {n m : ℕ} {X Z : Fin n → Fin m → K} {mask : Option (List ℤ)}
    (ht : (Spec.training n mask).Nonempty) (h : centering X "vector" mask = .ok (fun i f => .fin (Z i f)))
    (i j : Fin n) (f : Fin m) : Z i f - Z j f = X i f - X j f := by
  rw [vector_finite ht h, vector_finite ht h]
  ring

/-- C37: held-out vectors have no influence on the others. -/
theorem C37_held_out {n m : ℕ} {X X' Z Z' : Fin n → Fin m → K} {mask : Option (List ℤ)}
    (ht : (Spec.training n mask).Nonempty) (hX : ∀ i ∈ Spec.training n mask, X i = X' i)
    (h : centering X "vector" mask = .ok (fun i f => .fin (Z i f)))
    (h' : centering X' "vector" mask = .ok (fun i f => .fin (Z' i f))) :
    ∀ i ∈ Spec.training n mask, Z i = Z' i := by
  intro i hi
  funext f
  rw [vector_finite ht h, vector_finite ht h', hX i hi]
  congr 1
  unfold Spec.centroid
  rw [Finset.sum_congr rfl (fun j hj => by rw [hX j hj])]

/-! ### C38: Gram matrices -/

/-- C38: centering the matrix of inner products amounts to centering the vectors. -/
theorem C38_gram {n m : ℕ} (X : Fin n → Fin m → K) (metric : String) (hm : IsInner metric) :
    centering (fun i j => Spec.inner (X i) (X j)) metric none = .ok (fun i j => .fin (Spec.inner
      (fun f => X i f - Spec.centroid Finset.univ X f) (fun f => X j f - Spec.centroid Finset.univ X f))) := by
  rw [centering_inner _ metric hm]
  congr 1
  funext i j
  congr 1
  have hn : (n : K) ≠ 0 := by
    rw [Nat.cast_ne_zero]
    have := i.isLt
    omega
  have h1 : ∀ j, (∑ a, Spec.inner (X a) (X j)) / n = Spec.inner (Spec.centroid Finset.univ X) (X j) := by
    intro j
    unfold Spec.inner Spec.centroid
    rw [Finset.sum_comm, Finset.sum_div]
    refine Finset.sum_congr rfl fun f _ => ?_
    rw [← Finset.sum_mul, Finset.card_univ, Fintype.card_fin]
    ring
  have h2 : ∀ v : Fin m → K, (∑ b, Spec.inner v (X b)) / n = Spec.inner v (Spec.centroid Finset.univ X) := by
    intro v
    unfold Spec.inner Spec.centroid
    rw [Finset.sum_comm, Finset.sum_div]
    refine Finset.sum_congr rfl fun f _ => ?_
    rw [← Finset.mul_sum, Finset.card_univ, Fintype.card_fin]
    ring
  simp only [h1]
  rw [Finset.sum_sub_distrib, sub_div, h2, h2]
  unfold Spec.inner
  rw [← Finset.sum_sub_distrib, ← Finset.sum_sub_distrib, ← Finset.sum_sub_distrib]
  refine Finset.sum_congr rfl fun f _ => ?_
  ring

/-- C38: centering the vectors and then taking inner products gives the same matrix. -/
theorem C38_commutes {n m : ℕ} {X Z : Fin n → Fin m → K} (metric : String) (hm : IsInner metric)
    (h : centering X "vector" none = .ok (fun i f => .fin (Z i f))) :
    centering (fun i j => Spec.inner (X i) (X j)) metric none =
      .ok (fun i j => .fin (Spec.inner (Z i) (Z j))) := by
  rw [C38_gram X metric hm]
  congr 1
  funext i j
  have ht : (Spec.training n none).Nonempty := ⟨i, by simp [Spec.training]⟩
  have hu : Spec.training n none = Finset.univ := by simp [Spec.training]
  congr 2 <;> funext f <;> rw [vector_finite ht h, hu]

/-- C38: all columns sum to zero. -/
theorem C38_column_sums {n : ℕ} {A R : Fin n → Fin n → K} (metric : String) (hm : IsInner metric)
    (h : centering A metric none = .ok (fun i j => .fin (R i j))) (j : Fin n) : ∑ i, R i j = 0 := by
  rw [centering_inner _ metric hm] at h
  have hR : ∀ i, R i j = A i j - (∑ a, A a j) / n - (∑ b, (A i b - (∑ a, A a b) / n)) / n := fun i =>
    (XR.fin.inj (congrFun (congrFun (Except.ok.inj h) i) j)).symm
  have hn : (n : K) ≠ 0 := by
    rw [Nat.cast_ne_zero]
    have := j.isLt
    omega
  rw [Finset.sum_congr rfl (fun i _ => hR i), Finset.sum_sub_distrib, ← Finset.sum_div, Finset.sum_comm]
  have h0 : ∀ b : Fin n, ∑ i, (A i b - (∑ a, A a b) / n) = 0 := by
    intro b
    rw [Finset.sum_sub_distrib, Finset.sum_const, Finset.card_univ, Fintype.card_fin, nsmul_eq_mul]
    field_simp
    ring
  rw [h0, Finset.sum_eq_zero (fun b _ => h0 b)]
  simp

/-- C38: all rows sum to zero. -/
theorem C38_row_sums {n : ℕ} {A R : Fin n → Fin n → K} (metric : String) (hm : IsInner metric)
    (h : centering A metric none = .ok (fun i j => .fin (R i j))) (i : Fin n) : ∑ j, R i j = 0 := by
  rw [centering_inner _ metric hm] at h
  have hR : ∀ j, R i j = A i j - (∑ a, A a j) / n - (∑ b, (A i b - (∑ a, A a b) / n)) / n := fun j =>
    (XR.fin.inj (congrFun (congrFun (Except.ok.inj h) i) j)).symm
  have hn : (n : K) ≠ 0 := by
    rw [Nat.cast_ne_zero]
    have := i.isLt
    omega
  rw [Finset.sum_congr rfl (fun j _ => hR j), Finset.sum_sub_distrib, Finset.sum_const, Finset.card_univ,
    Fintype.card_fin, nsmul_eq_mul, mul_div_cancel₀ _ hn, sub_self]

/-- C38: centering twice changes nothing. -/
theorem C38_idempotent {n : ℕ} {A R : Fin n → Fin n → K} (metric metric' : String) (hm : IsInner metric)
    (hm' : IsInner metric') (h : centering A metric none = .ok (fun i j => .fin (R i j))) :
    centering R metric' none = .ok (fun i j => .fin (R i j)) := by
  rw [centering_inner _ metric' hm']
  congr 1
  funext i j
  congr 1
  simp only [C38_column_sums metric hm h, zero_div, sub_zero, C38_row_sums metric hm h]

/-- C38: the result is always finite. -/
theorem C38_finite {n : ℕ} (A : Fin n → Fin n → K) (metric : String) (hm : IsInner metric) :
    ∃ R : Fin n → Fin n → K, centering A metric none = .ok (fun i j => .fin (R i j)) :=
  ⟨_, centering_inner A metric hm⟩

omit [IsStrictOrderedRing K] in
/-- C38: held-out data and matrices which are not square are refused, as are other metrics. -/
theorem C38_errors {n m : ℕ} (A : Fin n → Fin m → K) (metric : String) (mask : Option (List ℤ)) :
    (IsInner metric → mask.isSome = true → centering A metric mask = .error .notImplementedError) ∧
    (IsInner metric → mask = none → m ≠ n → centering A metric mask = .error .typeError) ∧
    (¬ IsInner metric → metric ≠ "vector" → centering A metric mask = .error .valueError) := by
  unfold centering
  refine ⟨fun h h' => ?_, fun h h' hne => ?_, fun h h' => ?_⟩
  · rw [if_pos h, if_pos h']
  · subst h'
    rw [if_pos h]
    simp [hne]
  · rw [if_neg h, if_neg h']

/-! ### C40, C79: DisSim Global -/

omit [LinearOrder K] [IsStrictOrderedRing K] in
/-- Squared distances in terms of inner products around a common origin. -/
theorem disSim_eq {φ : Type} [Fintype φ] (x y c : φ → K) :
    Spec.disSim x y c c = -2 * Spec.inner (fun f => x f - c f) (fun f => y f - c f) := by
  unfold Spec.disSim Spec.sq Spec.inner
  rw [← Finset.sum_sub_distrib, ← Finset.sum_sub_distrib, Finset.mul_sum]
  refine Finset.sum_congr rfl fun f _ => ?_
  ring

/-- DisSim Global between the rows of two arrays. -/
theorem global_some {n m l : ℕ} (X : Fin n → Fin m → K) (Y : Fin l → Fin m → K) (hn : 0 < n) (hl : 0 < l)
    (hm : 0 < m) :
    disSimGlobal X (some ⟨l, m, Y⟩) = .ok ⟨l, fun i j => .fin (Spec.disSim (X i) (Y j)
      (Spec.centroid Finset.univ Y) (Spec.centroid Finset.univ Y))⟩ := by
  unfold disSimGlobal
  simp only [Option.getD_some, dif_pos]
  rw [if_neg (by omega)]
  have hne : List.finRange l ≠ [] := by
    rw [Ne, ← List.length_eq_zero_iff, List.length_finRange]
    omega
  have hc : ∀ f, rowsMean (fun j f => Y j (Fin.cast rfl f)) (List.finRange l) f =
      .fin (Spec.centroid Finset.univ Y f) := by
    intro f
    rw [rowsMean_eq _ _ (List.nodup_finRange l) hne, List.toFinset_finRange]
    rfl
  congr 2
  funext i j
  simp only [hc, sub_fin, mul_fin, sum_fin]
  unfold Spec.disSim Spec.sq sqDist
  simp only [pow_two, Fin.cast_eq_self]
  congr 1
  ring

omit [IsStrictOrderedRing K] in
/-- One argument calls. -/
theorem global_none {n m : ℕ} (X : Fin n → Fin m → K) :
    disSimGlobal X none = disSimGlobal X (some ⟨n, m, X⟩) := rfl

/-- C40: DisSim Global is minus twice the inner product after centering. -/
theorem C40_formula {n m : ℕ} (X : Fin n → Fin m → K) (hn : 0 < n) (hm : 0 < m) :
    disSimGlobal X none = .ok ⟨n, fun i j => .fin (-2 * Spec.inner
      (fun f => X i f - Spec.centroid Finset.univ X f) (fun f => X j f - Spec.centroid Finset.univ X f))⟩ := by
  rw [global_none, global_some X X hn hn hm]
  simp only [disSim_eq]

/-- C40: with training vectors `Y`, the origin is their centroid. -/
theorem C40_formula_test {n m l : ℕ} (X : Fin n → Fin m → K) (Y : Fin l → Fin m → K) (hn : 0 < n) (hl : 0 < l)
    (hm : 0 < m) :
    disSimGlobal X (some ⟨l, m, Y⟩) = .ok ⟨l, fun i j => .fin (-2 * Spec.inner
      (fun f => X i f - Spec.centroid Finset.univ Y f) (fun f => Y j f - Spec.centroid Finset.univ Y f))⟩ := by
  rw [global_some X Y hn hl hm]
  simp only [disSim_eq]

/-- C40: the matrix is symmetric. -/
theorem C40_symmetric {n m : ℕ} (X : Fin n → Fin m → K) (S : Fin n → Fin n → XR K)
    (h : disSimGlobal X none = .ok ⟨n, S⟩) (i j : Fin n) : S i j = S j i := by
  have hi := i.isLt
  by_cases hm : 0 < m
  · rw [C40_formula X (by omega) hm] at h
    have hS := Except.ok.inj h
    have hS := eq_of_heq (Sigma.mk.inj hS).2
    rw [← hS]
    simp only [Spec.inner]
    congr 2
    exact Finset.sum_congr rfl fun f _ => mul_comm _ _
  · exfalso
    unfold disSimGlobal at h
    simp only [Option.getD_none, dif_pos] at h
    rw [if_pos (by omega)] at h
    cases h

/-- C40: translation of all vectors changes nothing. -/
theorem C40_translation {n m : ℕ} (X : Fin n → Fin m → K) (t : Fin m → K) (hn : 0 < n) (hm : 0 < m) :
    disSimGlobal (fun i f => X i f + t f) none = disSimGlobal X none := by
  rw [C40_formula _ hn hm, C40_formula _ hn hm]
  have hc : ((Finset.univ : Finset (Fin n)).card : K) ≠ 0 := card_ne ⟨⟨0, hn⟩, Finset.mem_univ _⟩
  have : ∀ i f, X i f + t f - Spec.centroid Finset.univ (fun i f => X i f + t f) f
      = X i f - Spec.centroid Finset.univ X f := by
    intro i f
    unfold Spec.centroid
    rw [Finset.sum_add_distrib, Finset.sum_const, nsmul_eq_mul]
    field_simp
    ring
  simp only [this]

omit [IsStrictOrderedRing K] in
/-- C40: arrays with different numbers of features are refused. -/
theorem C40_features {n m l m' : ℕ} (X : Fin n → Fin m → K) (Y : Fin l → Fin m' → K) (h : m ≠ m') :
    disSimGlobal X (some ⟨l, m', Y⟩) = .error .valueError := by
  unfold disSimGlobal
  simp [h]

/-- C79: DisSim Global is minus twice the centred Gram matrix. -/
theorem C79_global_is_centering {n m : ℕ} (X : Fin n → Fin m → K) (metric : String) (hm : IsInner metric)
    (h0 : 0 < n) (h1 : 0 < m) : ∃ R : Fin n → Fin n → K,
      centering (fun i j => Spec.inner (X i) (X j)) metric none = .ok (fun i j => .fin (R i j)) ∧
      disSimGlobal X none = .ok ⟨n, fun i j => .fin (-2 * R i j)⟩ :=
  ⟨_, C38_gram X metric hm, C40_formula X h0 h1⟩

/-- C79: so the dissimilarities of each point sum to zero and a point never is farther from itself than zero. -/
theorem C79_zero_sum {n m : ℕ} (X : Fin n → Fin m → K) (h0 : 0 < n) (h1 : 0 < m) :
    ∃ S : Fin n → Fin n → K, disSimGlobal X none = .ok ⟨n, fun i j => .fin (S i j)⟩ ∧
      (∀ i, ∑ j, S i j = 0) ∧ (∀ j, ∑ i, S i j = 0) ∧ ∀ i, S i i ≤ 0 := by
  have hm : IsInner "inner" := by decide
  obtain ⟨R, hR, hS⟩ := C79_global_is_centering X "inner" hm h0 h1
  refine ⟨_, hS, fun i => ?_, fun j => ?_, fun i => ?_⟩
  · rw [← Finset.mul_sum, C38_row_sums "inner" hm hR, mul_zero]
  · rw [← Finset.mul_sum, C38_column_sums "inner" hm hR, mul_zero]
  · rw [C38_gram X "inner" hm] at hR
    have := XR.fin.inj (congrFun (congrFun (Except.ok.inj hR) i) i)
    rw [← this]
    have hnn : 0 ≤ Spec.inner (fun f => X i f - Spec.centroid Finset.univ X f)
        (fun f => X i f - Spec.centroid Finset.univ X f) := Finset.sum_nonneg fun f _ => mul_self_nonneg _
    linarith

/-! ### Examples -/

/-- Four points in the plane. -/
def pts : Fin 4 → Fin 2 → ℚ := ![![1, 0], ![3, 2], ![0, 5], ![2, 2]]

/-- Held-out rows leave training rows. -/
example : (Spec.training 4 (some [1, 7])).Nonempty := by decide
example : ¬ (Spec.training 2 (some [1, 0])).Nonempty := by decide
/-- Centering with a test set. -/
example : ∃ Z : Fin 4 → Fin 2 → ℚ, centering pts "vector" (some [1]) = .ok (fun i f => .fin (Z i f)) ∧ Z 1 0 = 2 ∧
    Z 0 1 = -7/3 := by
  refine ⟨_, C37_formula pts (some [1]) (by decide), ?_, ?_⟩ <;> decide +kernel
/-- Changing a held-out vector. -/
example : ∀ i ∈ Spec.training 4 (some [1]), pts i = (Function.update pts 1 ![9, 9]) i := by
  decide +kernel
example : ∃ R : Fin 4 → Fin 4 → ℚ,
    centering (fun i j => Spec.inner (pts i) (pts j)) "inner" none = .ok (fun i j => .fin (R i j)) ∧ R 0 1 = -3/16 := by
  refine ⟨_, C38_gram pts "inner" (by decide), ?_⟩
  decide +kernel
example : ∃ S : Fin 4 → Fin 4 → ℚ, disSimGlobal pts none = .ok ⟨4, fun i j => .fin (S i j)⟩ ∧ S 0 1 = 3/8 := by
  refine ⟨_, C40_formula pts (by decide) (by decide), ?_⟩
  decide +kernel

end HubToolbox.Cent
