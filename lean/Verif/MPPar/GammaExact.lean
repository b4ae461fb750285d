import Verif.MPPar.Real

/-!
# C27: every value of `mutual_proximity_gammai`

With the functions of scipy, all matrices: which values are `nan`, and what the others are.
-/

set_option autoImplicit false

namespace HubToolbox.MPPar

/-- A Gamma distribution can be fitted to the values of the object `i`: there are two at least, with positive mean. -/
def Fits {n : ℕ} (D : Fin n → Fin n → ℝ) (test : Option (List ℤ)) (i : Fin n) : Prop :=
  2 ≤ ((Spec.training n test).erase i).card ∧ 0 < Spec.meanOver ((Spec.training n test).erase i) (fun c => D c i)

theorem gammainc_zero_zero : scipy.gammainc (.fin 0) (.fin 0) = .nan := by
  change (if (0 : ℝ) < 0 ∧ (0 : ℝ) ≤ 0 then _ else if (0 : ℝ) = 0 ∧ (0 : ℝ) < 0 then _ else _) = _
  rw [if_neg (by simp), if_neg (by simp)]

open Classical in
/-- The probability the code computes for one object. -/
theorem gamCdf_cases {n : ℕ} (D : Fin n → Fin n → ℝ) (test : Option (List ℤ)) (i : Fin n) (x : ℝ) :
    gamCdf scipy x
      (XR.div (XR.mul (nanmean (colVals D (LS.trainInd n test) i)) (nanmean (colVals D (LS.trainInd n test) i)))
        (noZero (nanvar 1 (colVals D (LS.trainInd n test) i))))
      (XR.div (noZero (nanvar 1 (colVals D (LS.trainInd n test) i))) (nanmean (colVals D (LS.trainInd n test) i))) =
    if Fits D test i then .fin (Spec.gammaProb scipy.gamma ((Spec.training n test).erase i) (fun c => D c i) x) else .nan := by
  have hd : ∀ a : XR ℝ, XR.div a .nan = .nan := fun a => by cases a <;> rfl
  have hnd := LS.trainInd_nodup n test
  by_cases h2 : 2 ≤ ((Spec.training n test).erase i).card
  · have h2' := h2
    rw [← LS.trainInd_toFinset] at h2'
    rw [nanvar1_col D _ hnd i h2', nanmean_col D _ hnd i (Finset.card_pos.1 (by omega)), noZero_fin, LS.trainInd_toFinset]
    set N := (Spec.training n test).erase i
    have hv : 0 < Spec.guard (Spec.sampleVariance N (fun c => D c i)) := guard_pos (sampleVariance_nonneg _ _ h2)
    set v := Spec.guard (Spec.sampleVariance N (fun c => D c i)) with hvdef
    rcases lt_trichotomy (Spec.meanOver N (fun c => D c i)) 0 with hmu | hmu | hmu
    · rw [if_neg (fun h => hmu.not_gt h.2)]
      have hB : XR.div (.fin v) (.fin (Spec.meanOver N (fun c => D c i))) = .fin (v / Spec.meanOver N (fun c => D c i)) := by
        simp [XR.div, hmu.ne]
      have hb : XR.fle (.fin (v / Spec.meanOver N (fun c => D c i))) (.fin 0) := (div_neg_of_pos_of_neg hv hmu).le
      unfold gamCdf
      simp only [hB, if_pos hb, hd, scipy.gammainc_nan']
    · rw [if_neg (fun h => hmu.not_gt h.2), hmu]
      have hA : XR.div (XR.mul (.fin 0) (.fin 0)) (.fin v) = .fin (0 : ℝ) := by simp [XR.mul, XR.div, hv.ne']
      have hB : XR.div (.fin v) (.fin 0) = (.pinf : XR ℝ) := by simp [XR.div, XR.infMul, hv, hv.ne']
      unfold gamCdf
      have hp : ¬ XR.fle (.pinf : XR ℝ) (.fin 0) := by simp [XR.fle]
      have h0 : ¬ XR.flt (.fin (0 : ℝ)) (.fin 0) := by simp [XR.flt]
      have hx : ∀ y : ℝ, XR.div (.fin y) .pinf = .fin 0 := fun y => rfl
      simp only [hA, hB, if_neg hp, if_neg h0, hx, gammainc_zero_zero]
    · rw [if_pos ⟨h2, hmu⟩]
      have hA : XR.div (XR.mul (.fin (Spec.meanOver N (fun c => D c i))) (.fin (Spec.meanOver N (fun c => D c i)))) (.fin v) =
          .fin (Spec.meanOver N (fun c => D c i) ^ 2 / v) := by simp [XR.mul, XR.div, hv.ne', pow_two]
      have hB : XR.div (.fin v) (.fin (Spec.meanOver N (fun c => D c i))) = .fin (v / Spec.meanOver N (fun c => D c i)) := by
        simp [XR.div, hmu.ne']
      have ha : 0 < Spec.meanOver N (fun c => D c i) ^ 2 / v := div_pos (pow_pos hmu 2) hv
      have hb : 0 < v / Spec.meanOver N (fun c => D c i) := div_pos hv hmu
      have h1 : ¬ XR.flt (.fin (Spec.meanOver N (fun c => D c i) ^ 2 / v)) (.fin 0) := by simp [XR.flt, ha.le]
      have h3 : ¬ XR.fle (.fin (v / Spec.meanOver N (fun c => D c i))) (.fin 0) := not_le.2 hb
      have hmax : (if x < 0 then 0 else x) = max x 0 := by
        split_ifs with h
        · rw [max_eq_right h.le]
        · rw [max_eq_left (not_lt.1 h)]
      have hdv : ∀ y : ℝ, XR.div (.fin y) (.fin (v / Spec.meanOver N (fun c => D c i))) = .fin (y / (v / Spec.meanOver N (fun c => D c i))) := by
        intro y
        simp [XR.div, hb.ne']
      unfold gamCdf
      simp only [hA, hB, if_neg h1, if_neg h3, hmax, hdv]
      rw [scipy.gammainc_fin _ _ ha (div_nonneg (le_max_right _ _) hb.le)]
      rfl
  · rw [if_neg (fun h => h2 h.1)]
    have hvar : nanvar 1 (colVals D (LS.trainInd n test) i) = .nan := by
      unfold nanvar
      rw [if_pos]
      rw [colVals_length D _ hnd, LS.trainInd_toFinset]
      omega
    have hz : noZero .nan = .nan := by simp [noZero]
    rw [hvar, hz, hd]
    unfold gamCdf
    have h0 : ¬ XR.flt (.nan : XR ℝ) (.fin 0) := by simp [XR.flt]
    simp only [if_neg h0, scipy.gammainc_nan]

open Classical in
/-- **C27**: all values of `mutual_proximity_gammai`. A value is `nan` exactly if it is that of two different objects to one of which no Gamma
distribution can be fitted; all other values are the Mutual Proximity of the fitted Gamma distributions. -/
theorem C27_exact {n : ℕ} (D : Fin n → Fin n → ℝ) (metric : String) (hm : Spec.IsMetric metric) (mn : ℤ) (test : Option (List ℤ)) :
    gammai scipy (.mat false n n D) metric mn test = .ok ⟨n, fun i j =>
      if i = j then .fin (Spec.ownValue metric)
      else if Fits D test i ∧ Fits D test j then .fin (Spec.mutualProximity metric
        (Spec.gammaProb scipy.gamma ((Spec.training n test).erase i) (fun c => D c i) (D i j))
        (Spec.gammaProb scipy.gamma ((Spec.training n test).erase j) (fun c => D c j) (D j i)))
      else .nan⟩ := by
  rw [gammai_dense scipy D metric hm]
  congr 2
  funext i j
  have hmn : ∀ a : XR ℝ, XR.mul a .nan = .nan := fun a => by cases a <;> rfl
  have hnm : ∀ a : XR ℝ, XR.mul .nan a = .nan := fun a => by cases a <;> rfl
  have hs : XR.sub (.fin (1 : ℝ)) .nan = .nan := rfl
  have hself : selfValue metric = .fin (Spec.ownValue metric) := by
    unfold selfValue Spec.ownValue
    split_ifs <;> rfl
  have key : ∀ a b : Fin n, gamEntry scipy metric (D a b) (D b a)
      (XR.div (XR.mul (nanmean (colVals D (LS.trainInd n test) a)) (nanmean (colVals D (LS.trainInd n test) a)))
        (noZero (nanvar 1 (colVals D (LS.trainInd n test) a))))
      (XR.div (noZero (nanvar 1 (colVals D (LS.trainInd n test) a))) (nanmean (colVals D (LS.trainInd n test) a)))
      (XR.div (XR.mul (nanmean (colVals D (LS.trainInd n test) b)) (nanmean (colVals D (LS.trainInd n test) b)))
        (noZero (nanvar 1 (colVals D (LS.trainInd n test) b))))
      (XR.div (noZero (nanvar 1 (colVals D (LS.trainInd n test) b))) (nanmean (colVals D (LS.trainInd n test) b))) =
      if Fits D test a ∧ Fits D test b then .fin (Spec.mutualProximity metric
        (Spec.gammaProb scipy.gamma ((Spec.training n test).erase a) (fun c => D c a) (D a b))
        (Spec.gammaProb scipy.gamma ((Spec.training n test).erase b) (fun c => D c b) (D b a))) else .nan := by
    intro a b
    unfold gamEntry Spec.mutualProximity
    rw [gamCdf_cases, gamCdf_cases]
    by_cases ha : Fits D test a
    · by_cases hb : Fits D test b
      · rw [if_pos ha, if_pos hb, if_pos (show Fits D test a ∧ Fits D test b from ⟨ha, hb⟩)]
        by_cases hsim : metric = "similarity"
        · simp only [if_pos hsim]
          rfl
        · simp only [if_neg hsim, XR.sub, XR.neg, XR.add, XR.mul]
          congr 1
      · rw [if_neg hb, if_neg (fun h : Fits D test a ∧ Fits D test b => hb h.2)]
        simp only [hs, hmn, ite_self]
    · rw [if_neg ha, if_neg (fun h : Fits D test a ∧ Fits D test b => ha h.1)]
      simp only [hs, hnm, ite_self]
  unfold gammaiDense
  simp only [fillUpper_eq, LS.mirror, hself]
  rcases lt_trichotomy i j with h | rfl | h
  · rw [if_neg h.ne, if_neg h.ne, if_pos h, key]
  · rw [if_pos rfl, if_pos rfl]
  · rw [if_neg h.ne', if_neg h.ne', if_neg h.not_gt, key]
    by_cases hf : Fits D test i ∧ Fits D test j
    · rw [if_pos hf, if_pos hf.symm]
      unfold Spec.mutualProximity
      congr 1
      split_ifs <;> ring
    · rw [if_neg hf, if_neg (fun h => hf h.symm)]

/-- **C27** holds exactly if there is at most one object, or all objects have at least two values with positive mean. -/
theorem C27_iff {n : ℕ} (D : Fin n → Fin n → ℝ) (metric : String) (hm : Spec.IsMetric metric) (mn : ℤ) (test : Option (List ℤ)) :
    (∃ M : Fin n → Fin n → ℝ, gammai scipy (.mat false n n D) metric mn test = .ok ⟨n, fun i j => .fin (M i j)⟩ ∧
      (∀ i j, M i j = M j i) ∧ (∀ i j, 0 ≤ M i j ∧ M i j ≤ 1) ∧ ∀ i, M i i = Spec.ownValue metric) ↔
    n ≤ 1 ∨ ∀ i, Fits D test i := by
  constructor
  · rintro ⟨M, h, -⟩
    by_contra hno
    push Not at hno
    obtain ⟨hn, i, hi⟩ := hno
    have : Nontrivial (Fin n) := Fin.nontrivial_iff_two_le.2 hn
    obtain ⟨j, hj⟩ := exists_ne i
    rw [C27_exact D metric hm mn test] at h
    have h1 := congrFun (congrFun (eq_of_heq (Sigma.mk.inj (Except.ok.inj h)).2) i) j
    simp only [if_neg (Ne.symm hj), if_neg (fun h : Fits D test i ∧ Fits D test j => hi h.1)] at h1
    cases h1
  · rintro (hn | h)
    · refine ⟨fun _ _ => Spec.ownValue metric, ?_, fun _ _ => rfl, fun _ _ => ownValue_unit metric, fun _ => rfl⟩
      rw [C27_exact D metric hm mn test]
      congr 2
      funext i j
      rw [if_pos (Fin.ext (by omega))]
    · obtain ⟨M, h1, h2, h3, h4, -⟩ := C27_valid_partial scipy D metric hm mn test (fun j => (h j).1) (fun j => (h j).2)
      exact ⟨M, h1, h2, h3, h4⟩

/-- Three objects on a line: all values are finite. -/
example : ∀ i, Fits line3 none i := by
  obtain ⟨h1, h2, h3, h4, h5, h6⟩ := line3_vals
  intro i
  unfold Fits
  rw [training3]
  refine ⟨by fin_cases i <;> decide, ?_⟩
  unfold Spec.meanOver
  refine div_pos ?_ (by fin_cases i <;> simp)
  refine Finset.sum_pos (fun c hc => ?_) (Finset.card_pos.1 (by fin_cases i <;> decide))
  have hc := (Finset.mem_erase.1 hc).1
  fin_cases i <;> fin_cases c <;> simp_all

end HubToolbox.MPPar
