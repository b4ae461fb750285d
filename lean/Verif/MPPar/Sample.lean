import Verif.MPPar.Invariance

/-!
# Properties of the sampled variants and of the argument handling of parametric Mutual Proximity
-/

set_option autoImplicit false

namespace HubToolbox.MPPar

open HubToolbox

/-- C94: the claim that parameters can be estimated from a sample of the given size does not hold: for dense matrices every
`sample_size` but zero raises `TypeError`. -/
theorem C94_violated (F : Dists) {n : ℕ} (D : Fin n → Fin n → ℝ) (metric : String) (hm : Spec.IsMetric metric)
    (sampleSize mn : ℤ) (hs : sampleSize ≠ 0) (test : Option (List ℤ)) :
    gaussi F (.mat false n n D) metric sampleSize mn test none = .error .typeError := by
  unfold gaussi
  simp [PyMat.checkSquare, check_ok hm, hs, bind, Except.bind]
  rfl

example : (5 : ℤ) ≠ 0 := by decide

theorem rowVals_eq_colVals {n : ℕ} (D : Fin n → Fin n → ℝ) (hD : ∀ i j, D i j = D j i) (i : Fin n) :
    rowVals D id i = colVals D (List.finRange n) i := by
  unfold rowVals colVals
  refine List.map_congr_left fun c _ => hD i c

theorem gaussi_idx (F : Dists) {n s : ℕ} (hs : s ≤ n) (D : Fin n → Fin s → ℝ) (idx : Fin s → Fin n) (metric : String)
    (hm : Spec.IsMetric metric) (ss mn : ℤ) (test : Option (List ℤ)) :
    gaussi F (.mat false n s D) metric ss mn test (some ⟨s, fun b => ((idx b).val : ℤ)⟩)
      = .ok ⟨n, s, LS.setSelf idx (selfValue metric) (gaussiEntries F metric D idx)⟩ := by
  unfold gaussi
  simp [LS.checkSample, hs.not_gt, check_ok hm, bind, Except.bind, pure, Except.pure, LS.wrapAll_val]

/-- C95: with all objects as sample, in their order, the sampled normal variant of a symmetric matrix is the full one. -/
theorem C95_all (F : Dists) {n : ℕ} (D : Fin n → Fin n → ℝ) (hD : ∀ i j, D i j = D j i) (metric : String)
    (hm : Spec.IsMetric metric) (ss mn mn' : ℤ) (test : Option (List ℤ)) :
    gaussi F (.mat false n n D) metric ss mn test (some ⟨n, fun b => (b.val : ℤ)⟩)
      = gaussi F (.mat false n n D) metric 0 mn' none none := by
  rw [gaussi_dense F D metric hm]
  refine (gaussi_idx F le_rfl D id metric hm ss mn test).trans ?_
  congr 3
  funext i j
  rw [LS.setSelf_apply]
  unfold gaussiDense gaussiEntries
  simp only [fillUpper_eq, LS.mirror, rowVals_eq_colVals D hD, id, LS.trainInd]
  by_cases hij : i = j
  · simp [hij]
  · rw [if_neg hij, if_neg hij]
    split_ifs
    · rfl
    · rw [gaussEntry_comm, hD i j]

example : ∀ i j, line3 i j = line3 j i := line3_symm

/-- C96: `mutual_proximity_gaussi_sample` returns the rows of `mutual_proximity_gaussi(D, idx=idx)` chosen by
`test_set_ind`, all rows without it. -/
theorem C96_rows (F : Dists) {n s : ℕ} (hs : s ≤ n) (D : Fin n → Fin s → ℝ) (idx : Fin s → Fin n) (metric : String)
    (hm : Spec.IsMetric metric) (ss mn : ℤ) (test' : Option (List ℤ)) {t : ℕ} (test : Fin t → Fin n) :
    ∃ M : Fin n → Fin s → XR ℝ,
      gaussi F (.mat false n s D) metric ss mn test' (some ⟨s, fun b => ((idx b).val : ℤ)⟩) = .ok ⟨n, s, M⟩
      ∧ gaussiSample F (.mat false n s D) (some ⟨s, fun b => ((idx b).val : ℤ)⟩) metric none = .ok ⟨n, s, M⟩
      ∧ gaussiSample F (.mat false n s D) (some ⟨s, fun b => ((idx b).val : ℤ)⟩) metric
          (some ⟨t, fun a => ((test a).val : ℤ)⟩) = .ok ⟨t, s, fun a => M (test a)⟩ := by
  refine ⟨_, gaussi_idx F hs D idx metric hm ss mn test', ?_, ?_⟩
  · unfold gaussiSample
    simp only [LS.checkSample, if_neg hs.not_gt, check_ok hm, bind, Except.bind, pure, Except.pure,
      SNN.wrapTest, SNN.rowsOf]
    simp only [Fin.cast_eq_self, LS.wrapAll_val, dif_pos]
    congr 3
    funext a b
    rw [LS.setSelf_apply, LS.setSelf_apply, LS.fillRows_apply, if_pos (List.mem_finRange a)]
  · unfold gaussiSample
    simp only [LS.checkSample, if_neg hs.not_gt, check_ok hm, bind, Except.bind, pure, Except.pure,
      SNN.wrapTest, SNN.rowsOf]
    simp only [Fin.cast_eq_self, LS.wrapAll_val, dif_pos]
    congr 3
    funext a b
    rw [LS.setSelf_apply, LS.setSelf_apply, LS.fillRows_apply, if_pos ((List.mem_ofFn' _ _).mpr ⟨a, rfl⟩)]

/-- Mean and standard deviation of the values of an object to the sampled objects other than itself. -/
theorem rowVals_stats {n s : ℕ} (D : Fin n → Fin s → ℝ) (idx : Fin s → Fin n) (i : Fin n)
    (hne : (Finset.univ.filter (fun b => idx b ≠ i)).Nonempty) :
    nanmean (rowVals D idx i) = .fin (Spec.meanOver (Finset.univ.filter (fun b => idx b ≠ i)) (D i)) ∧
    noZero (XR.sqrt (nanvar 0 (rowVals D idx i)))
      = .fin (Spec.guard (Spec.stdDev (Finset.univ.filter (fun b => idx b ≠ i)) (D i))) := by
  have hnd : ((List.finRange s).filter (fun b => decide (idx b ≠ i))).Nodup := (List.nodup_finRange s).filter _
  have hf : ((List.finRange s).filter (fun b => decide (idx b ≠ i))).toFinset = Finset.univ.filter (fun b => idx b ≠ i) := by
    ext b; simp
  have hl : (rowVals D idx i).length = (Finset.univ.filter (fun b => idx b ≠ i)).card := by
    unfold rowVals
    rw [List.length_map, ← List.toFinset_card_of_nodup hnd, hf]
  have hsum : ∀ g : Fin s → ℝ, (((List.finRange s).filter (fun b => decide (idx b ≠ i))).map g).sum
      = ∑ b ∈ Finset.univ.filter (fun b => idx b ≠ i), g b := by
    intro g
    rw [← List.sum_toFinset _ hnd, hf]
  have hmean : (rowVals D idx i).sum / (rowVals D idx i).length
      = Spec.meanOver (Finset.univ.filter (fun b => idx b ≠ i)) (D i) := by
    rw [hl]
    unfold rowVals
    rw [hsum]
    rfl
  have hpos := Finset.card_pos.mpr hne
  constructor
  · unfold nanmean
    rw [if_neg, hmean]
    intro h
    rw [h] at hl
    exact hpos.ne' hl.symm
  · have hv : nanvar 0 (rowVals D idx i) = .fin (Spec.variance (Finset.univ.filter (fun b => idx b ≠ i)) (D i)) := by
      unfold nanvar
      rw [if_neg (by rw [hl]; omega), hmean, hl]
      unfold rowVals
      rw [List.map_map, hsum]
      simp [Spec.variance]
    rw [hv, sqrt_fin (variance_nonneg _ _), noZero_fin]
    rfl

/-- C97: the sampled normal variant has entries in `[0,1]`, the right self values, and is the Mutual Proximity of the normal
distributions fitted to the values to the sampled objects. -/
theorem C97_formula (F : Dists) {n s : ℕ} (hs : s ≤ n) (D : Fin n → Fin s → ℝ) (idx : Fin s → Fin n) (metric : String)
    (hm : Spec.IsMetric metric) (ss mn : ℤ) (test : Option (List ℤ))
    (hne : ∀ i, (Finset.univ.filter (fun b => idx b ≠ i)).Nonempty) :
    ∃ M : Fin n → Fin s → ℝ,
      gaussi F (.mat false n s D) metric ss mn test (some ⟨s, fun b => ((idx b).val : ℤ)⟩)
        = .ok ⟨n, s, fun i b => .fin (M i b)⟩
      ∧ (∀ i b, 0 ≤ M i b ∧ M i b ≤ 1)
      ∧ (∀ b, M (idx b) b = Spec.ownValue metric)
      ∧ ∀ i b, i ≠ idx b → M i b = Spec.mutualProximity metric
        (Spec.normalProb F.phi (Finset.univ.filter (fun c => idx c ≠ i)) (D i) (D i b))
        (Spec.normalProb F.phi (Finset.univ.filter (fun c => idx c ≠ idx b)) (D (idx b)) (D i b)) := by
  have e : LS.setSelf idx (selfValue metric) (gaussiEntries F metric D idx) = fun i b => .fin
      (if i = idx b then Spec.ownValue metric else Spec.mutualProximity metric
        (Spec.normalProb F.phi (Finset.univ.filter (fun c => idx c ≠ i)) (D i) (D i b))
        (Spec.normalProb F.phi (Finset.univ.filter (fun c => idx c ≠ idx b)) (D (idx b)) (D i b))) := by
    funext i b
    rw [LS.setSelf_apply]
    split_ifs with h
    · exact selfValue_fin metric
    · unfold gaussiEntries
      simp only [(rowVals_stats D idx i (hne i)).1, (rowVals_stats D idx i (hne i)).2,
        (rowVals_stats D idx (idx b) (hne (idx b))).1, (rowVals_stats D idx (idx b) (hne (idx b))).2]
      exact gaussEntry_fin F metric _ _ _ _ _ (guard_pos (Real.sqrt_nonneg _)) (guard_pos (Real.sqrt_nonneg _))
  refine ⟨_, (gaussi_idx F hs D idx metric hm ss mn test).trans (by rw [e]), ?_, ?_, ?_⟩
  · intro i b
    split_ifs
    · exact ownValue_unit metric
    · exact ⟨mp_nonneg metric (F.phi_nonneg _) (F.phi_le_one _) (F.phi_nonneg _) (F.phi_le_one _),
        mp_le_one metric (F.phi_nonneg _) (F.phi_le_one _) (F.phi_nonneg _) (F.phi_le_one _)⟩
  · intro b
    simp
  · intro i b h
    simp [h]

example : ∀ i : Fin 3, (Finset.univ.filter (fun b : Fin 2 => (![0, 2] : Fin 2 → Fin 3) b ≠ i)).Nonempty := by decide

/-- C98: matrices which are not square are rejected. -/
theorem C98_rejects (F : Dists) (sp : Bool) {n m : ℕ} (D : Fin n → Fin m → ℝ) (metric : String) (ss mn : ℤ)
    (test : Option (List ℤ)) (h : n ≠ m) :
    gaussi F (.mat sp n m D) metric ss mn test none = .error .typeError
      ∧ gammai F (.mat sp n m D) metric mn test = .error .typeError := by
  constructor
  · unfold gaussi
    simp [PyMat.checkSquare, h, bind, Except.bind]
  · unfold gammai
    simp [PyMat.checkSquare, h, bind, Except.bind]

/-- C98: unknown metrics are rejected. -/
theorem C98_rejects_metric (F : Dists) (sp : Bool) {n : ℕ} (D : Fin n → Fin n → ℝ) (metric : String)
    (hm : ¬ Spec.IsMetric metric) (ss mn : ℤ) (test : Option (List ℤ)) :
    gaussi F (.mat sp n n D) metric ss mn test none = .error .valueError
      ∧ gammai F (.mat sp n n D) metric mn test = .error .valueError := by
  have hc : checkValidMetric metric = .error .valueError := by
    unfold checkValidMetric
    unfold Spec.IsMetric at hm
    push Not at hm
    simp [hm.1, hm.2]
    try rfl
  constructor
  · unfold gaussi
    simp [PyMat.checkSquare, hc, bind, Except.bind]
  · unfold gammai
    simp [PyMat.checkSquare, hc, bind, Except.bind]

example : ¬ Spec.IsMetric "distances" := by unfold Spec.IsMetric; decide

end HubToolbox.MPPar
