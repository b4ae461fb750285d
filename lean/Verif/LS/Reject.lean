import Verif.LS.Sample

/-!
# Rejected arguments of Local Scaling and NICDM (C135)
-/

set_option autoImplicit false

namespace HubToolbox.LS

open HubToolbox

/-- C135: matrices which are not square are rejected with `TypeError`, whatever the other arguments are. -/
theorem C135_square (w : World) (sp : Bool) (n m : ℕ) (hnm : n ≠ m) (D : Fin n → Fin m → XR ℝ) (k : ℤ) (k' : ℕ)
    (metric : String) (test : Option (List ℤ)) (nJobs : ℤ) :
    localScaling w (.mat sp n m D) k metric test nJobs = .error .typeError ∧
      nicdm w (.mat sp n m D) k' metric test nJobs = .error .typeError := by
  have h : (PyMat.mat sp n m D).checkSquare = .error .typeError := by
    simp only [PyMat.checkSquare, hnm, dif_neg, not_false_eq_true]
  exact ⟨by simp only [localScaling, h, bind, Except.bind], by simp only [nicdm, h, bind, Except.bind]⟩

theorem checkSquare_mat (sp : Bool) (n : ℕ) (D : Fin n → Fin n → XR ℝ) :
    (PyMat.mat sp n n D).checkSquare = .ok (sp, ⟨n, D⟩) := by
  simp [PyMat.checkSquare]

/-- C135: an unknown metric is rejected with `ValueError`. -/
theorem C135_metric (w : World) (sp : Bool) (n : ℕ) (D : Fin n → Fin n → XR ℝ) (k : ℤ) (k' : ℕ)
    (metric : String) (h1 : metric ≠ "distance") (h2 : metric ≠ "similarity") (test : Option (List ℤ)) (nJobs : ℤ) :
    localScaling w (.mat sp n n D) k metric test nJobs = .error .valueError ∧
      nicdm w (.mat sp n n D) k' metric test nJobs = .error .valueError := by
  have h : checkValidMetric metric = .error .valueError := if_pos ⟨h1, h2⟩
  constructor
  · simp only [localScaling, checkSquare_mat, h, bind, Except.bind]
  · simp only [nicdm, checkSquare_mat, h, bind, Except.bind]

/-- C135: NICDM is not defined for similarities, which is reported as `NotImplementedError`; so is Local Scaling of
sparse distances. -/
theorem C135_not_implemented (w : World) (sp : Bool) (n : ℕ) (D : Fin n → Fin n → XR ℝ) (k : ℤ) (k' : ℕ)
    (test : Option (List ℤ)) (nJobs : ℤ) :
    nicdm w (.mat sp n n D) k' "similarity" test nJobs = .error .notImplementedError ∧
      localScaling w (.mat true n n D) k "distance" test nJobs = .error .notImplementedError := by
  have h : checkValidMetric "similarity" = .ok () := rfl
  have h' : checkValidMetric "distance" = .ok () := rfl
  constructor
  · simp only [nicdm, checkSquare_mat, h, bind, Except.bind, if_true]
    rfl
  · simp only [localScaling, checkSquare_mat, h', bind, Except.bind, if_true]
    rfl

/-- C135: the sample variants reject a missing index array, sparse matrices and an index array of the wrong length with
`TypeError`, more columns than rows with `ValueError`, and similarities with `NotImplementedError`. -/
theorem C135_sample (o : ArgPart (XR ℝ)) (n s : ℕ) (D : Fin n → Fin s → XR ℝ) (k : ℤ) (k' : ℕ) (metric : String)
    (test : Option (Σ t : ℕ, Fin t → ℤ)) :
    (localScalingSample o (.mat false n s D) k metric none test = .error .typeError ∧
      nicdmSample o (.mat false n s D) k' metric none test = .error .typeError) ∧
    (∀ idx, localScalingSample o (.mat true n s D) k metric idx test = .error .typeError ∧
      nicdmSample o (.mat true n s D) k' metric idx test = .error .typeError) ∧
    (∀ (s' : ℕ) (v : Fin s' → ℤ), s ≤ n → s ≠ s' →
      localScalingSample o (.mat false n s D) k metric (some ⟨s', v⟩) test = .error .typeError ∧
      nicdmSample o (.mat false n s D) k' metric (some ⟨s', v⟩) test = .error .typeError) ∧
    (∀ (s' : ℕ) (v : Fin s' → ℤ), n < s →
      localScalingSample o (.mat false n s D) k metric (some ⟨s', v⟩) test = .error .valueError ∧
      nicdmSample o (.mat false n s D) k' metric (some ⟨s', v⟩) test = .error .valueError) ∧
    (∀ v : Fin s → ℤ, s ≤ n →
      localScalingSample o (.mat false n s D) k "similarity" (some ⟨s, v⟩) test = .error .notImplementedError ∧
      nicdmSample o (.mat false n s D) k' "similarity" (some ⟨s, v⟩) test = .error .notImplementedError) := by
  have hv : checkValidMetric "similarity" = .ok () := rfl
  refine ⟨⟨rfl, rfl⟩, fun idx => ⟨rfl, rfl⟩, fun s' v h h' => ?_, fun s' v h => ?_, fun v h => ?_⟩
  · constructor
    · simp only [localScalingSample, checkSample, not_lt.2 h, h', bind, Except.bind, if_false, dif_neg, not_false_eq_true,
        gt_iff_lt]
    · simp only [nicdmSample, checkSample, not_lt.2 h, h', bind, Except.bind, if_false, dif_neg, not_false_eq_true,
        gt_iff_lt]
  · constructor
    · simp only [localScalingSample, checkSample, h, bind, Except.bind, if_true, gt_iff_lt]
    · simp only [nicdmSample, checkSample, h, bind, Except.bind, if_true, gt_iff_lt]
  · constructor
    · simp only [localScalingSample, checkSample, not_lt.2 h, hv, bind, Except.bind, if_false, dif_pos, gt_iff_lt, if_true]
      rfl
    · simp only [nicdmSample, checkSample, not_lt.2 h, hv, bind, Except.bind, if_false, dif_pos, gt_iff_lt, if_true]
      rfl

example : (2 : ℕ) ≠ 3 ∧ "euclidean" ≠ "distance" ∧ "euclidean" ≠ "similarity" := by decide

/-- **C69**, the part which holds for the sample variants: `k` above the number of training points raises
`ValueError`. -/
theorem C69_sample_too_large_partial (o : ArgPart (XR ℝ)) {n s : ℕ} (hn : 0 < n) (hsn : s ≤ n) (D : Fin n → Fin s → XR ℝ)
    (idx : Fin s → Fin n) (k : ℕ) (hk : s < k) (test : Option (Σ t : ℕ, Fin t → ℤ)) :
    localScalingSample o (.mat false n s D) k "distance" (some (ints idx)) test = .error .valueError ∧
    nicdmSample o (.mat false n s D) k "distance" (some (ints idx)) test = .error .valueError := by
  have hcs : checkSample (.mat false n s D) (some (ints idx)) = .ok ⟨n, s, D, fun j => ((idx j).val : ℤ)⟩ := by
    unfold checkSample ints
    simp [not_lt.2 hsn]
  have hrad : ∀ i, partAt o (setSelf idx .pinf D i) ((k : ℤ) - 1) = .error .valueError := by
    intro i
    have hw : Np.wrap s ((k : ℤ) - 1) = none := by
      unfold Np.wrap
      rw [dif_neg (by omega), dif_neg (by omega)]
    unfold partAt
    simp [Np.argpartition, Np.wrapAll, hw]
  constructor
  · unfold localScalingSample
    rw [hcs]
    change (match Np.wrapAll n (fun j => ((idx j).val : ℤ)) with | none => _ | some idx => _) = _
    rw [wrapAll_val]
    simp only [hrad, Np.tabulateM_error hn]
    rfl
  · unfold nicdmSample
    rw [hcs]
    change (match Np.wrapAll n (fun j => ((idx j).val : ℤ)) with | none => _ | some idx => _) = _
    rw [wrapAll_val]
    simp only [hk, if_true]
    rfl

example : 0 < 3 ∧ 2 ≤ 3 ∧ 2 < 3 := by decide

end HubToolbox.LS
