import Verif.MPPar.Lemmas

/-!
# Properties of dense Mutual Proximity with independent normal or Gamma distributions
-/

set_option autoImplicit false

namespace HubToolbox.MPPar

open HubToolbox

/-- A simple choice of the distribution functions, for examples. -/
noncomputable def simple : Dists where
  phi := fun x => if x < 0 then 0 else 1
  phi_mono := by
    intro x y h
    by_cases h1 : x < 0
    · by_cases h2 : y < 0 <;> simp [h1, h2]
    · have h2 : ¬ y < 0 := not_lt.mpr ((not_lt.mp h1).trans h)
      simp [h1, h2]
  phi_nonneg := by intro x; by_cases h : x < 0 <;> simp [h]
  phi_le_one := by intro x; by_cases h : x < 0 <;> simp [h]
  gammainc := fun a x => match a, x with
    | .fin _, .fin x => .fin (1 - Real.exp (-x))
    | _, _ => .nan
  gammainc_nan := by intro x; rfl
  gammainc_nan' := by intro a; cases a <;> rfl
  gamma := fun _ x => 1 - Real.exp (-x)
  gammainc_fin := by intros; rfl
  gamma_mono := by
    intro a x y _ _ h
    have : Real.exp (-y) ≤ Real.exp (-x) := Real.exp_le_exp.mpr (by linarith)
    linarith
  gamma_zero := by intro a _; simp
  gamma_le_one := by
    intro a x _ _
    have := Real.exp_pos (-x)
    linarith

/-- Entries of the normal variant. -/
noncomputable def gaussM (F : Dists) (metric : String) {n : ℕ} (T : Finset (Fin n)) (D : Fin n → Fin n → ℝ) (i j : Fin n) :
    ℝ :=
  if i = j then Spec.ownValue metric
  else Spec.mutualProximity metric (Spec.normalProb F.phi (T.erase i) (fun c => D c i) (D (min i j) (max i j)))
    (Spec.normalProb F.phi (T.erase j) (fun c => D c j) (D (min i j) (max i j)))

/-- Entries of the Gamma variant. -/
noncomputable def gamM (F : Dists) (metric : String) {n : ℕ} (T : Finset (Fin n)) (D : Fin n → Fin n → ℝ) (i j : Fin n) :
    ℝ :=
  if i = j then Spec.ownValue metric
  else Spec.mutualProximity metric (Spec.gammaProb F.gamma (T.erase i) (fun c => D c i) (D i j))
    (Spec.gammaProb F.gamma (T.erase j) (fun c => D c j) (D j i))

theorem gaussi_eq (F : Dists) {n : ℕ} (D : Fin n → Fin n → ℝ) (metric : String) (hm : Spec.IsMetric metric) (mn : ℤ)
    (test : Option (List ℤ)) (hne : ∀ j, ((Spec.training n test).erase j).Nonempty) :
    gaussi F (.mat false n n D) metric 0 mn test none
      = .ok ⟨n, n, fun i j => .fin (gaussM F metric (Spec.training n test) D i j)⟩ := by
  rw [gaussi_dense F D metric hm]
  have hne' := hne
  simp only [← LS.trainInd_toFinset] at hne' ⊢
  rw [gaussiDense_eq F metric D _ (LS.trainInd_nodup n test) hne']
  congr 3
  funext i j
  unfold LS.mirror gaussM Spec.normalProb
  rcases lt_trichotomy i j with h | h | h
  · simp [h, h.ne, min_eq_left h.le, max_eq_right h.le]
  · simp [h]
  · simp only [h.ne', h.not_gt, min_eq_right h.le, max_eq_left h.le, if_false]
    rw [mp_comm]

theorem gammai_eq (F : Dists) {n : ℕ} (D : Fin n → Fin n → ℝ) (metric : String) (hm : Spec.IsMetric metric) (mn : ℤ)
    (test : Option (List ℤ)) (h2 : ∀ j, 2 ≤ ((Spec.training n test).erase j).card)
    (hmu : ∀ j, 0 < Spec.meanOver ((Spec.training n test).erase j) (fun c => D c j)) :
    gammai F (.mat false n n D) metric mn test
      = .ok ⟨n, fun i j => .fin (gamM F metric (Spec.training n test) D i j)⟩ := by
  rw [gammai_dense F D metric hm]
  have h2' := h2
  have hmu' := hmu
  simp only [← LS.trainInd_toFinset] at h2' hmu' ⊢
  rw [gammaiDense_eq F metric D _ (LS.trainInd_nodup n test) h2' hmu']
  congr 2
  funext i j
  unfold LS.mirror gamM Spec.gammaProb
  rcases lt_trichotomy i j with h | h | h
  · simp [h, h.ne]
  · simp [h]
  · simp only [h.ne', h.not_gt, if_false]
    rw [mp_comm]

/-- C26: if every object has a value to some other training object, the result is finite, symmetric, has entries in `[0,1]`
and the right self values. -/
theorem C26_valid (F : Dists) {n : ℕ} (D : Fin n → Fin n → ℝ) (metric : String) (hm : Spec.IsMetric metric) (mn : ℤ)
    (test : Option (List ℤ)) (hne : ∀ j, ((Spec.training n test).erase j).Nonempty) :
    ∃ M : Fin n → Fin n → ℝ, gaussi F (.mat false n n D) metric 0 mn test none = .ok ⟨n, n, fun i j => .fin (M i j)⟩
      ∧ (∀ i j, M i j = M j i) ∧ (∀ i j, 0 ≤ M i j ∧ M i j ≤ 1) ∧ (∀ i, M i i = Spec.ownValue metric) := by
  refine ⟨_, gaussi_eq F D metric hm mn test hne, ?_, ?_, ?_⟩
  · intro i j
    unfold gaussM
    by_cases h : i = j
    · simp [h]
    · rw [if_neg h, if_neg (Ne.symm h), mp_comm, min_comm, max_comm]
  · intro i j
    unfold gaussM
    split_ifs
    · exact ownValue_unit metric
    · exact ⟨mp_nonneg metric (F.phi_nonneg _) (F.phi_le_one _) (F.phi_nonneg _) (F.phi_le_one _),
        mp_le_one metric (F.phi_nonneg _) (F.phi_le_one _) (F.phi_nonneg _) (F.phi_le_one _)⟩
  · intro i
    simp [gaussM]

/-- C26: for a symmetric matrix the entry of two different objects is the Mutual Proximity of the two normal distributions
fitted to the values of each object to the other training objects. -/
theorem C26_formula (F : Dists) {n : ℕ} (D : Fin n → Fin n → ℝ) (hD : ∀ i j, D i j = D j i) (metric : String)
    (hm : Spec.IsMetric metric) (mn : ℤ) (test : Option (List ℤ)) (hne : ∀ j, ((Spec.training n test).erase j).Nonempty) :
    ∃ M : Fin n → Fin n → ℝ, gaussi F (.mat false n n D) metric 0 mn test none = .ok ⟨n, n, fun i j => .fin (M i j)⟩
      ∧ ∀ i j, i ≠ j → M i j = Spec.mutualProximity metric
        (Spec.normalProb F.phi ((Spec.training n test).erase i) (D i) (D i j))
        (Spec.normalProb F.phi ((Spec.training n test).erase j) (D j) (D i j)) := by
  refine ⟨_, gaussi_eq F D metric hm mn test hne, ?_⟩
  intro i j hij
  have e1 : D (min i j) (max i j) = D i j := by
    rcases le_total i j with h | h
    · rw [min_eq_left h, max_eq_right h]
    · rw [min_eq_right h, max_eq_left h, hD]
  have e2 : ∀ i, (fun c => D c i) = D i := fun i => funext fun c => hD c i
  unfold gaussM
  rw [if_neg hij, e1, e2, e2]

/-- C26: the secondary value is monotone in the primary value: if two pairs of objects (of the same or of two data sets)
have the same row means and standard deviations, a larger primary value gives a secondary value at least as large. -/
theorem C26_monotone (F : Dists) {n n' : ℕ} (D : Fin n → Fin n → ℝ) (hD : ∀ i j, D i j = D j i) (D' : Fin n' → Fin n' → ℝ)
    (hD' : ∀ i j, D' i j = D' j i) (metric : String) (hm : Spec.IsMetric metric) (mn mn' : ℤ)
    (test test' : Option (List ℤ)) (hne : ∀ j, ((Spec.training n test).erase j).Nonempty)
    (hne' : ∀ j, ((Spec.training n' test').erase j).Nonempty) :
    ∃ (M : Fin n → Fin n → ℝ) (M' : Fin n' → Fin n' → ℝ), gaussi F (.mat false n n D) metric 0 mn test none = .ok ⟨n, n, fun i j => .fin (M i j)⟩
      ∧ gaussi F (.mat false n' n' D') metric 0 mn' test' none = .ok ⟨n', n', fun i j => .fin (M' i j)⟩
      ∧ ∀ (i j : Fin n) (i' j' : Fin n'), i ≠ j → i' ≠ j' →
        Spec.meanOver ((Spec.training n test).erase i) (D i) = Spec.meanOver ((Spec.training n' test').erase i') (D' i') →
        Spec.meanOver ((Spec.training n test).erase j) (D j) = Spec.meanOver ((Spec.training n' test').erase j') (D' j') →
        Spec.stdDev ((Spec.training n test).erase i) (D i) = Spec.stdDev ((Spec.training n' test').erase i') (D' i') →
        Spec.stdDev ((Spec.training n test).erase j) (D j) = Spec.stdDev ((Spec.training n' test').erase j') (D' j') →
        D i j ≤ D' i' j' → M i j ≤ M' i' j' := by
  obtain ⟨M, hM, hf⟩ := C26_formula F D hD metric hm mn test hne
  obtain ⟨M', hM', hf'⟩ := C26_formula F D' hD' metric hm mn' test' hne'
  refine ⟨M, M', hM, hM', ?_⟩
  intro i j i' j' hij hij' m1 m2 s1 s2 hle
  rw [hf i j hij, hf' i' j' hij']
  unfold Spec.normalProb
  rw [m1, m2, s1, s2]
  have hq : ∀ (m s : ℝ), 0 ≤ s → F.phi ((D i j - m) / Spec.guard s) ≤ F.phi ((D' i' j' - m) / Spec.guard s) := by
    intro m s hs
    exact F.phi_mono (div_le_div_of_nonneg_right (by linarith) (guard_pos hs).le)
  exact mp_mono metric (F.phi_nonneg _) (F.phi_nonneg _) (hq _ _ (Real.sqrt_nonneg _)) (hq _ _ (Real.sqrt_nonneg _))
    (F.phi_le_one _) (F.phi_le_one _)

/-- C27: if every object has values to at least two other training objects and their mean is positive, the result of the
Gamma variant is finite, symmetric, has entries in `[0,1]` and the right self values. The full claim has no such hypotheses;
it does not hold, see `C27_violated_two` and `C27_violated_negative`. -/
theorem C27_valid_partial (F : Dists) {n : ℕ} (D : Fin n → Fin n → ℝ) (metric : String) (hm : Spec.IsMetric metric) (mn : ℤ)
    (test : Option (List ℤ)) (h2 : ∀ j, 2 ≤ ((Spec.training n test).erase j).card)
    (hmu : ∀ j, 0 < Spec.meanOver ((Spec.training n test).erase j) (fun c => D c j)) :
    ∃ M : Fin n → Fin n → ℝ, gammai F (.mat false n n D) metric mn test = .ok ⟨n, fun i j => .fin (M i j)⟩
      ∧ (∀ i j, M i j = M j i) ∧ (∀ i j, 0 ≤ M i j ∧ M i j ≤ 1) ∧ (∀ i, M i i = Spec.ownValue metric)
      ∧ ∀ i j, i ≠ j → M i j = Spec.mutualProximity metric
        (Spec.gammaProb F.gamma ((Spec.training n test).erase i) (fun c => D c i) (D i j))
        (Spec.gammaProb F.gamma ((Spec.training n test).erase j) (fun c => D c j) (D j i)) := by
  have hv : ∀ i, 0 < Spec.guard (Spec.sampleVariance ((Spec.training n test).erase i) (fun c => D c i)) := fun i =>
    guard_pos (sampleVariance_nonneg _ _ (h2 i))
  have ha : ∀ i, 0 < Spec.meanOver ((Spec.training n test).erase i) (fun c => D c i) ^ 2
      / Spec.guard (Spec.sampleVariance ((Spec.training n test).erase i) (fun c => D c i)) := fun i =>
    div_pos (pow_pos (hmu i) 2) (hv i)
  have hx : ∀ i x, 0 ≤ max x 0 / (Spec.guard (Spec.sampleVariance ((Spec.training n test).erase i) (fun c => D c i))
      / Spec.meanOver ((Spec.training n test).erase i) (fun c => D c i)) := fun i x =>
    div_nonneg (le_max_right _ _) (div_pos (hv i) (hmu i)).le
  refine ⟨_, gammai_eq F D metric hm mn test h2 hmu, ?_, ?_, ?_, ?_⟩
  · intro i j
    unfold gamM
    by_cases h : i = j
    · simp [h]
    · rw [if_neg h, if_neg (Ne.symm h), mp_comm]
  · intro i j
    unfold gamM
    split_ifs
    · exact ownValue_unit metric
    · exact ⟨mp_nonneg metric (gamma_nonneg F (ha _) (hx _ _)) (F.gamma_le_one _ _ (ha _) (hx _ _))
          (gamma_nonneg F (ha _) (hx _ _)) (F.gamma_le_one _ _ (ha _) (hx _ _)),
        mp_le_one metric (gamma_nonneg F (ha _) (hx _ _)) (F.gamma_le_one _ _ (ha _) (hx _ _))
          (gamma_nonneg F (ha _) (hx _ _)) (F.gamma_le_one _ _ (ha _) (hx _ _))⟩
  · intro i
    simp [gamM]
  · intro i j hij
    simp [gamM, hij]

/-- C27: with two objects all entries of different objects are `nan`. -/
theorem C27_violated_two (F : Dists) (D : Fin 2 → Fin 2 → ℝ) (metric : String) (hm : Spec.IsMetric metric) (mn : ℤ) :
    ∃ M : Fin 2 → Fin 2 → XR ℝ, gammai F (.mat false 2 2 D) metric mn none = .ok ⟨2, M⟩ ∧ M 0 1 = .nan ∧ M 1 0 = .nan := by
  have e : ∀ j, nanvar 1 (colVals D (List.finRange 2) j) = .nan := by
    intro j
    unfold nanvar
    rw [if_pos]
    rw [colVals_length D _ (List.nodup_finRange 2)]
    fin_cases j <;> decide
  have hnan : ∀ (x : ℝ) (b : XR ℝ), gamCdf F x .nan b = .nan := by
    intro x b
    simp [gamCdf, XR.flt, F.gammainc_nan]
  have key : ∀ i j, i ≠ j → gammaiDense F metric D (List.finRange 2) i j = .nan := by
    intro i j hij
    have hd : ∀ a : XR ℝ, XR.div a .nan = .nan := fun a => by cases a <;> rfl
    unfold gammaiDense
    simp only [fillUpper_eq, e, LS.mirror]
    simp [hij, noZero, hd, gamEntry, hnan, XR.mul, XR.sub, XR.add, XR.neg]
  exact ⟨_, gammai_dense F D metric hm mn none, key 0 1 (by decide), key 1 0 (by decide)⟩

/-- C27: if the similarities of an object to the others have a negative mean, all its values are `nan`. -/
theorem C27_violated_negative (F : Dists) {n : ℕ} (D : Fin n → Fin n → ℝ) (metric : String) (hm : Spec.IsMetric metric)
    (mn : ℤ) (i : Fin n) (h2 : 3 ≤ n) (hmu : Spec.meanOver (Finset.univ.erase i) (fun c => D c i) < 0) :
    ∃ M : Fin n → Fin n → XR ℝ, gammai F (.mat false n n D) metric mn none = .ok ⟨n, M⟩ ∧ ∀ j, j ≠ i → M i j = .nan := by
  refine ⟨_, gammai_dense F D metric hm mn none, ?_⟩
  intro j hij
  have hu : (List.finRange n).toFinset = Finset.univ := by ext; simp
  have hc : 2 ≤ ((List.finRange n).toFinset.erase i).card := by
    rw [hu, Finset.card_erase_of_mem (Finset.mem_univ i), Finset.card_univ, Fintype.card_fin]; omega
  have hB : XR.div (noZero (nanvar 1 (colVals D (List.finRange n) i))) (nanmean (colVals D (List.finRange n) i))
      = .fin (Spec.guard (Spec.sampleVariance (Finset.univ.erase i) (fun c => D c i))
        / Spec.meanOver (Finset.univ.erase i) (fun c => D c i)) := by
    rw [nanvar1_col D _ (List.nodup_finRange n) i hc, nanmean_col D _ (List.nodup_finRange n) i
      (Finset.card_pos.mp (by omega)), noZero_fin, hu]
    simp [XR.div, hmu.ne]
  have hb : Spec.guard (Spec.sampleVariance (Finset.univ.erase i) (fun c => D c i))
        / Spec.meanOver (Finset.univ.erase i) (fun c => D c i) ≤ 0 :=
    (div_neg_of_pos_of_neg (guard_pos (sampleVariance_nonneg _ _ (by rwa [hu] at hc))) hmu).le
  have hnan : ∀ (x : ℝ) (a : XR ℝ), gamCdf F x a (XR.div (noZero (nanvar 1 (colVals D (List.finRange n) i)))
      (nanmean (colVals D (List.finRange n) i))) = .nan := by
    intro x a
    rw [hB]
    unfold gamCdf
    have hb' : XR.fle (.fin (Spec.guard (Spec.sampleVariance (Finset.univ.erase i) (fun c => D c i))
        / Spec.meanOver (Finset.univ.erase i) (fun c => D c i))) (.fin 0) := hb
    simp only [if_pos hb', XR.div, F.gammainc_nan']
  have hmn : ∀ a : XR ℝ, XR.mul a .nan = .nan := fun a => by cases a <;> rfl
  have hnm : ∀ a : XR ℝ, XR.mul .nan a = .nan := fun a => by cases a <;> rfl
  have hs : XR.sub (.fin (1 : ℝ)) .nan = .nan := rfl
  show gammaiDense F metric D (List.finRange n) i j = .nan
  unfold gammaiDense
  simp only [fillUpper_eq, LS.mirror]
  rw [if_neg (Ne.symm hij)]
  split_ifs <;> simp only [gamEntry, hnan, hs, hmn, hnm, ite_self]

/-- Three objects on a line. -/
def line3 : Fin 3 → Fin 3 → ℝ := ![![0, 1, 3], ![1, 0, 2], ![3, 2, 0]]

theorem line3_vals : line3 0 1 = 1 ∧ line3 0 2 = 3 ∧ line3 1 0 = 1 ∧ line3 1 2 = 2 ∧ line3 2 0 = 3 ∧ line3 2 1 = 2 :=
  ⟨rfl, rfl, rfl, rfl, rfl, rfl⟩

theorem line3_symm : ∀ i j, line3 i j = line3 j i := by
  intro i j
  fin_cases i <;> fin_cases j <;> rfl

theorem training3 : Spec.training 3 none = Finset.univ := by
  ext; simp [Spec.training]

theorem training3_card (j : Fin 3) : ((Spec.training 3 none).erase j).card = 2 := by
  rw [training3]
  fin_cases j <;> decide

theorem training3_ne (j : Fin 3) : ((Spec.training 3 none).erase j).Nonempty :=
  Finset.card_pos.mp (by rw [training3_card]; decide)

theorem erase3 : Finset.univ.erase (0 : Fin 3) = {1, 2} ∧ Finset.univ.erase (1 : Fin 3) = {0, 2} ∧
    Finset.univ.erase (2 : Fin 3) = {0, 1} := by decide

theorem mean3 (f : Fin 3 → ℝ) : Spec.meanOver (Finset.univ.erase 0) f = (f 1 + f 2) / 2 ∧
    Spec.meanOver (Finset.univ.erase 1) f = (f 0 + f 2) / 2 ∧ Spec.meanOver (Finset.univ.erase 2) f = (f 0 + f 1) / 2 := by
  unfold Spec.meanOver
  rw [erase3.1, erase3.2.1, erase3.2.2]
  refine ⟨?_, ?_, ?_⟩ <;> simp

example : ∃ M : Fin 3 → Fin 3 → ℝ,
    gaussi simple (.mat false 3 3 line3) "distance" 0 30 none none = .ok ⟨3, 3, fun i j => .fin (M i j)⟩
      ∧ M 0 1 = 0 ∧ M 0 2 = 1 := by
  obtain ⟨M, hM, hf⟩ := C26_formula simple line3 line3_symm "distance" (Or.inr rfl) 30 none training3_ne
  refine ⟨M, hM, ?_, ?_⟩
  · rw [hf 0 1 (by decide)]
    unfold Spec.normalProb
    rw [training3, (mean3 _).1, (mean3 _).2.1]
    have h0 : line3 0 1 - (line3 0 1 + line3 0 2) / 2 = -1 := by norm_num [line3_vals]
    have h1 : line3 0 1 - (line3 1 0 + line3 1 2) / 2 = -1 / 2 := by norm_num [line3_vals]
    rw [h0, h1]
    have n0 := div_neg_of_neg_of_pos (show (-1 : ℝ) < 0 by norm_num)
      (guard_pos (Real.sqrt_nonneg (Spec.variance (Finset.univ.erase 0) (line3 0))))
    have n1 := div_neg_of_neg_of_pos (show (-1 / 2 : ℝ) < 0 by norm_num)
      (guard_pos (Real.sqrt_nonneg (Spec.variance (Finset.univ.erase 1) (line3 1))))
    simp only [simple, Spec.stdDev, Spec.mutualProximity]
    rw [if_pos n0, if_pos n1]
    simp
  · rw [hf 0 2 (by decide)]
    unfold Spec.normalProb
    rw [training3, (mean3 _).1, (mean3 _).2.2]
    have h0 : line3 0 2 - (line3 0 1 + line3 0 2) / 2 = 1 := by norm_num [line3_vals]
    have h1 : line3 0 2 - (line3 2 0 + line3 2 1) / 2 = 1 / 2 := by norm_num [line3_vals]
    rw [h0, h1]
    have n0 := div_pos (show (0 : ℝ) < 1 by norm_num)
      (guard_pos (Real.sqrt_nonneg (Spec.variance (Finset.univ.erase 0) (line3 0))))
    have n1 := div_pos (show (0 : ℝ) < 1 / 2 by norm_num)
      (guard_pos (Real.sqrt_nonneg (Spec.variance (Finset.univ.erase 2) (line3 2))))
    simp only [simple, Spec.stdDev, Spec.mutualProximity]
    rw [if_neg n0.not_gt, if_neg n1.not_gt]
    simp

theorem mean3_pos (j : Fin 3) : 0 < Spec.meanOver ((Spec.training 3 none).erase j) (fun c => line3 c j) := by
  rw [training3]
  fin_cases j
  · exact (mean3 (fun c => line3 c 0)).1 ▸ by norm_num [line3_vals]
  · exact (mean3 (fun c => line3 c 1)).2.1 ▸ by norm_num [line3_vals]
  · exact (mean3 (fun c => line3 c 2)).2.2 ▸ by norm_num [line3_vals]

example : ∃ M : Fin 3 → Fin 3 → ℝ,
    gammai simple (.mat false 3 3 line3) "distance" 30 none = .ok ⟨3, fun i j => .fin (M i j)⟩ :=
  let ⟨M, h, _⟩ := C27_valid_partial simple line3 "distance" (Or.inr rfl) 30 none (fun j => (training3_card j).ge) mean3_pos
  ⟨M, h⟩

example : Spec.meanOver (Finset.univ.erase (0 : Fin 3)) (fun c => - line3 c 0) < 0 := by
  rw [(mean3 _).1]; norm_num [line3_vals]

end HubToolbox.MPPar
