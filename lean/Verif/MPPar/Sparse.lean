import Verif.MPPar.SparseLemmas

/-!
# Properties of parametric Mutual Proximity of sparse similarity matrices
-/

set_option autoImplicit false

namespace HubToolbox.MPPar

open HubToolbox

theorem finRange_toFinset (n : ℕ) : (List.finRange n).toFinset = Finset.univ := by ext; simp

theorem gaussi_sparse_ok (F : Dists) {n : ℕ} (hn : 0 < n) (S : Fin n → Fin n → ℝ) (hS : ∀ i, S i i = 1) (metric : String)
    (hm : Spec.IsMetric metric) (ss mn : ℤ) (test : Option (List ℤ)) :
    gaussi F (.mat true n n S) metric ss mn test none
      = .ok ⟨n, n, fun i j => if i = j then .fin 1 else gaussCell F S (LS.trainInd n test) i j⟩ := by
  rw [gaussi_sparse F S _ hm, gaussiSparse_apply F hn S hS]
  rfl

theorem gammai_sparse_ok (F : Dists) {n : ℕ} (hn : 0 < n) (S : Fin n → Fin n → ℝ) (hS : ∀ i, S i i = 1) (metric : String)
    (hm : Spec.IsMetric metric) (mn : ℤ) (test : Option (List ℤ)) :
    gammai F (.mat true n n S) metric mn test
      = .ok ⟨n, sparseFill mn S (gamCell F S (LS.trainInd n test))⟩ := by
  rw [gammai_sparse F S _ hm, gammaiSparse_eq F hn S hS]
  rfl

theorem gaussProd_unit (F : Dists) (x y : ℝ) : 0 ≤ F.phi x * F.phi y ∧ F.phi x * F.phi y ≤ 1 :=
  ⟨mul_nonneg (F.phi_nonneg _) (F.phi_nonneg _), mul_le_one₀ (F.phi_le_one _) (F.phi_nonneg _) (F.phi_le_one _)⟩

/-- C99: for a symmetric sparse similarity matrix with self similarities one, in which the values present for each object
are not all the same, the normal variant is finite, symmetric, has entries in `[0,1]` and self similarities one; missing
values stay missing, all others become the Mutual Proximity of the normal distributions fitted to the values present.
The full claim has no condition on the values; it does not hold, see `C99_violated`. -/
theorem C99_valid_partial (F : Dists) {n : ℕ} (hn : 0 < n) (S : Fin n → Fin n → ℝ) (hS : ∀ i, S i i = 1)
    (hsym : ∀ i j, S i j = S j i) (ss mn : ℤ)
    (hsd : ∀ j, Spec.stdDev (Spec.present Finset.univ S j) (fun c => S c j) ≠ 0) :
    ∃ M : Fin n → Fin n → ℝ, gaussi F (.mat true n n S) "similarity" ss mn none none = .ok ⟨n, n, fun i j => .fin (M i j)⟩
      ∧ (∀ i j, M i j = M j i) ∧ (∀ i j, 0 ≤ M i j ∧ M i j ≤ 1) ∧ (∀ i, M i i = 1) ∧ (∀ i j, S i j = 0 → M i j = 0)
      ∧ ∀ i j, i ≠ j → S i j ≠ 0 → M i j = Spec.mutualProximity "similarity"
        (Spec.normalProb F.phi (Spec.present Finset.univ S i) (S i) (S i j))
        (Spec.normalProb F.phi (Spec.present Finset.univ S j) (S j) (S i j)) := by
  have hcol : ∀ i, (fun c => S c i) = S i := fun i => funext fun c => hsym c i
  have e : (fun i j => if i = j then XR.fin 1 else gaussCell F S (LS.trainInd n none) i j)
      = fun i j => XR.fin (if i = j then 1 else if S i j = 0 then 0 else
        (Spec.normalProb F.phi (Spec.present Finset.univ S i) (S i) (S i j)
          * Spec.normalProb F.phi (Spec.present Finset.univ S j) (S j) (S i j))) := by
    funext i j
    by_cases hij : i = j
    · simp [hij]
    rw [if_neg hij, if_neg hij]
    by_cases h0 : S i j = 0
    · rw [if_pos h0]
      have h0' : S j i = 0 := by rw [hsym]; exact h0
      simp [gaussCell, zeroMissing, h0, h0', XR.mul]
    · rw [if_neg h0]
      have h0' : S j i ≠ 0 := by rw [hsym]; exact h0
      show gaussCell F S (List.finRange n) i j = _
      rw [gaussCell_fin F S (List.finRange n) (List.nodup_finRange n) hS i j (fun k _ => List.mem_finRange k)
        (fun k _ => by rw [finRange_toFinset]; exact hsd k) h0 h0', finRange_toFinset, hcol, hcol, hsym j i]
  have hok := gaussi_sparse_ok F hn S hS "similarity" (Or.inl rfl) ss mn none
  rw [e] at hok
  refine ⟨_, hok, ?_, ?_, ?_, ?_, ?_⟩
  · intro i j
    by_cases hij : i = j
    · simp [hij]
    · simp only [hij, Ne.symm hij, if_false, hsym j i]
      rw [mul_comm]
  · intro i j
    split_ifs
    · norm_num
    · norm_num
    · exact gaussProd_unit F _ _
  · intro i
    simp
  · intro i j h0
    have hij : i ≠ j := by
      rintro rfl
      rw [hS] at h0
      exact one_ne_zero h0
    simp [hij, h0]
  · intro i j hij h0
    simp [hij, h0, Spec.mutualProximity]

/-- C99: if all values present for an object are the same, its secondary similarities are `nan`. -/
theorem C99_violated (F : Dists) {n : ℕ} (S : Fin n → Fin n → ℝ) (hS : ∀ i, S i i = 1) (hsym : ∀ i j, S i j = S j i)
    (ss mn : ℤ) (i j : Fin n) (hij : i ≠ j) (h0 : S i j ≠ 0)
    (hsd : Spec.stdDev (Spec.present Finset.univ S j) (fun c => S c j) = 0) :
    ∃ M : Fin n → Fin n → XR ℝ, gaussi F (.mat true n n S) "similarity" ss mn none none = .ok ⟨n, n, M⟩ ∧ M i j = .nan := by
  refine ⟨_, gaussi_sparse_ok F (Nat.pos_of_ne_zero fun h => by subst h; exact i.elim0) S hS "similarity" (Or.inl rfl) ss mn
    none, ?_⟩
  · have hne : (Spec.present (List.finRange n).toFinset S j).Nonempty := by
      rw [finRange_toFinset]
      exact ⟨i, by simp [Spec.present, hij, h0]⟩
    have hn : normCdf F (S j i) (colMoment 1 S (List.finRange n) j) (XR.sqrt (colVar S (List.finRange n) j)) = .nan := by
      rw [colMoment_eq S _ (List.nodup_finRange n) j (List.mem_finRange j) (hS j) hne 1 one_ne_zero,
        colVar_eq S _ (List.nodup_finRange n) j (List.mem_finRange j) (hS j) hne, sqrt_fin (variance_nonneg _ _),
        finRange_toFinset]
      unfold Spec.stdDev at hsd
      rw [hsd]
      simp [normCdf]
    have hmn : ∀ a : XR ℝ, XR.mul a .nan = .nan := fun a => by cases a <;> rfl
    simp only [hij, if_false]
    show gaussCell F S (List.finRange n) i j = .nan
    unfold gaussCell
    rw [hn]
    have h0' : S j i ≠ 0 := by rw [hsym]; exact h0
    simp only [zeroMissing, h0', if_false, hmn]

/-- C100: if no values are missing and the values of each object are not all the same, the normal variant gives the same for
sparse and dense similarity matrices. The full claim has no condition on the values (see `C100_violated`). -/
theorem C100_complete_partial (F : Dists) {n : ℕ} (hn : 0 < n) (S : Fin n → Fin n → ℝ) (hS : ∀ i, S i i = 1)
    (hsym : ∀ i j, S i j = S j i) (hfull : ∀ i j, S i j ≠ 0) (ss mn mn' : ℤ)
    (hsd : ∀ j, Spec.stdDev (Finset.univ.erase j) (fun c => S c j) ≠ 0) :
    gaussi F (.mat true n n S) "similarity" ss mn none none = gaussi F (.mat false n n S) "similarity" 0 mn' none none := by
  have hp : ∀ j, Spec.present Finset.univ S j = Finset.univ.erase j := by
    intro j
    ext c
    simp [Spec.present, hfull]
  have ht : Spec.training n none = Finset.univ := by ext; simp [Spec.training]
  obtain ⟨M, hM, -, -, h1, -, hf⟩ := C99_valid_partial F hn S hS hsym ss mn (fun j => by rw [hp]; exact hsd j)
  obtain ⟨M', hM', hf'⟩ := C26_formula F S hsym "similarity" (Or.inl rfl) mn' none
    (fun j => by rw [ht]; exact nonempty_of_std (hsd j))
  obtain ⟨M'', hM'', -, -, h1''⟩ := C26_valid F S "similarity" (Or.inl rfl) mn' none
    (fun j => by rw [ht]; exact nonempty_of_std (hsd j))
  have hMM : M' = M'' := by
    have h := hM'.symm.trans hM''
    have h2 := eq_of_heq (Sigma.mk.inj (eq_of_heq (Sigma.mk.inj (Except.ok.inj h)).2)).2
    funext i j
    exact XR.fin.inj (congrFun (congrFun h2 i) j)
  subst hMM
  rw [hM, hM']
  congr 3
  funext i j
  by_cases hij : i = j
  · subst hij
    rw [h1, h1'']
    simp [Spec.ownValue]
  · rw [hf i j hij (hfull i j), hf' i j hij, hp, hp, ht]

/-- All pairs have similarity one half. -/
noncomputable def half3 : Fin 3 → Fin 3 → ℝ := fun i j => if i = j then 1 else 1 / 2

theorem half3_std (j : Fin 3) : Spec.stdDev (Spec.present Finset.univ half3 j) (fun c => half3 c j) = 0 := by
  have hp : Spec.present Finset.univ half3 j = Finset.univ.erase j := by
    ext c
    unfold Spec.present half3
    simp only [Finset.mem_filter, Finset.mem_univ, true_and, Finset.mem_erase, and_true]
    constructor
    · exact fun h => h.1
    · intro h
      exact ⟨h, by rw [if_neg h]; norm_num⟩
  rw [hp]
  have hc : (Finset.univ.erase j).card = 2 := by fin_cases j <;> decide
  have hv : ∀ c ∈ Finset.univ.erase j, half3 c j = 1 / 2 := fun c hc => by simp [half3, Finset.ne_of_mem_erase hc]
  have hm : Spec.meanOver (Finset.univ.erase j) (fun c => half3 c j) = 1 / 2 := by
    unfold Spec.meanOver
    rw [Finset.sum_congr rfl hv, Finset.sum_const, hc]
    norm_num
  unfold Spec.stdDev Spec.variance
  rw [hm, Finset.sum_eq_zero, zero_div, Real.sqrt_zero]
  intro c hc
  simp only [hv c hc]
  norm_num

theorem half3_facts : (∀ i, half3 i i = 1) ∧ (∀ i j, half3 i j = half3 j i) ∧ ∀ i j, half3 i j ≠ 0 := by
  refine ⟨fun i => by simp [half3], fun i j => ?_, fun i j => ?_⟩
  · unfold half3
    by_cases h : i = j
    · simp [h]
    · simp [h, Ne.symm h]
  · unfold half3
    split_ifs <;> norm_num

/-- C100: with equal similarities the sparse result is not the dense one, which is always finite. -/
theorem C100_violated (F : Dists) : ∃ S : Fin 3 → Fin 3 → ℝ, (∀ i, S i i = 1) ∧ (∀ i j, S i j = S j i) ∧ (∀ i j, S i j ≠ 0) ∧
    gaussi F (.mat true 3 3 S) "similarity" 0 30 none none ≠ gaussi F (.mat false 3 3 S) "similarity" 0 30 none none := by
  refine ⟨half3, half3_facts.1, half3_facts.2.1, half3_facts.2.2, ?_⟩
  obtain ⟨M, hM, hnan⟩ := C99_violated F half3 half3_facts.1 half3_facts.2.1 0 30 0 1 (by decide) (half3_facts.2.2 0 1)
    (half3_std 1)
  obtain ⟨M', hM', -⟩ := C26_valid F half3 "similarity" (Or.inl rfl) 30 none training3_ne
  rw [hM, hM']
  intro h
  have h2 := eq_of_heq (Sigma.mk.inj (eq_of_heq (Sigma.mk.inj (Except.ok.inj h)).2)).2
  rw [h2] at hnan
  cases hnan

/-- C101: the claim that similarities of objects with fewer than `min_nnz` values are kept does not hold for the normal
variant: the parameter has no influence, and there are matrices in which no object has thirty values whose similarities are
not kept. -/
theorem C101_violated (F : Dists) :
    (∀ (n : ℕ) (S : Fin n → Fin n → ℝ) (ss mn mn' : ℤ) (test : Option (List ℤ)),
      gaussi F (.mat true n n S) "similarity" ss mn test none = gaussi F (.mat true n n S) "similarity" ss mn' test none)
    ∧ ∃ (S : Fin 3 → Fin 3 → ℝ) (M : Fin 3 → Fin 3 → XR ℝ), (∀ i, Spec.rowCount S i < 30) ∧
      gaussi F (.mat true 3 3 S) "similarity" 0 30 none none = .ok ⟨3, 3, M⟩ ∧ M 0 1 ≠ .fin (S 0 1) := by
  refine ⟨fun n S ss mn mn' test => rfl, half3, ?_⟩
  obtain ⟨M, hM, hnan⟩ := C99_violated F half3 half3_facts.1 half3_facts.2.1 0 30 0 1 (by decide) (half3_facts.2.2 0 1)
    (half3_std 1)
  refine ⟨M, fun i => ?_, hM, ?_⟩
  · refine lt_of_le_of_lt (Finset.card_le_univ _) ?_
    simp
  · rw [hnan]
    intro h
    cases h

/-- C102: among training objects the normal distributions are those fitted to the values present for other training
objects. The full claim is about all objects; it does not hold for held-out ones, see `C102_violated`. -/
theorem C102_training_partial (F : Dists) {n : ℕ} (hn : 0 < n) (S : Fin n → Fin n → ℝ) (hS : ∀ i, S i i = 1)
    (hsym : ∀ i j, S i j = S j i) (ss mn : ℤ) (test : Option (List ℤ)) :
    ∃ M : Fin n → Fin n → XR ℝ, gaussi F (.mat true n n S) "similarity" ss mn test none = .ok ⟨n, n, M⟩
      ∧ ∀ i ∈ Spec.training n test, ∀ j ∈ Spec.training n test, i ≠ j → S i j ≠ 0 →
        Spec.stdDev (Spec.present (Spec.training n test) S i) (S i) ≠ 0 →
        Spec.stdDev (Spec.present (Spec.training n test) S j) (S j) ≠ 0 →
        M i j = .fin (Spec.mutualProximity "similarity"
          (Spec.normalProb F.phi (Spec.present (Spec.training n test) S i) (S i) (S i j))
          (Spec.normalProb F.phi (Spec.present (Spec.training n test) S j) (S j) (S i j))) := by
  have hcol : ∀ i, (fun c => S c i) = S i := fun i => funext fun c => hsym c i
  refine ⟨_, gaussi_sparse_ok F hn S hS "similarity" (Or.inl rfl) ss mn test, ?_⟩
  · intro i hi j hj hij h0 hsi hsj
    have h0' : S j i ≠ 0 := by rw [hsym]; exact h0
    simp only [hij, if_false]
    rw [gaussCell_fin F S _ (LS.trainInd_nodup n test) hS i j ?_ ?_ h0 h0', LS.trainInd_toFinset, hcol, hcol, hsym j i]
    · simp [Spec.mutualProximity]
    · rintro k (rfl | rfl)
      · rwa [← List.mem_toFinset, LS.trainInd_toFinset]
      · rwa [← List.mem_toFinset, LS.trainInd_toFinset]
    · rintro k (rfl | rfl)
      · rw [LS.trainInd_toFinset, hcol]; exact hsi
      · rw [LS.trainInd_toFinset, hcol]; exact hsj

/-- Four objects without missing similarities. -/
noncomputable def held4 : Fin 4 → Fin 4 → ℝ :=
  ![![1, 1 / 4, 1 / 2, 1 / 4], ![1 / 4, 1, 3 / 4, 1 / 2], ![1 / 2, 3 / 4, 1, 3 / 4], ![1 / 4, 1 / 2, 3 / 4, 1]]

/-- C102: the similarities of a held-out object to the training objects are `1/4`, `1/2`, `3/4`, but the correction for the
self similarity, which is not among them, makes the estimated variance negative and the result `nan`. -/
theorem C102_violated (F : Dists) : (∀ i, held4 i i = 1) ∧ (∀ i j, held4 i j = held4 j i) ∧
    Spec.stdDev (Spec.present (Spec.training 4 (some [3])) held4 3) (held4 3) ≠ 0 ∧
    ∃ M : Fin 4 → Fin 4 → XR ℝ, gaussi F (.mat true 4 4 held4) "similarity" 0 30 (some [3]) none = .ok ⟨4, 4, M⟩
      ∧ M 0 3 = .nan := by
  have hS : ∀ i, held4 i i = 1 := by intro i; fin_cases i <;> rfl
  have v0 : held4 0 3 = 1 / 4 := rfl
  have v1 : held4 1 3 = 1 / 2 := rfl
  have v2 : held4 2 3 = 3 / 4 := rfl
  have w0 : held4 3 0 = 1 / 4 := rfl
  have w1 : held4 3 1 = 1 / 2 := rfl
  have w2 : held4 3 2 = 3 / 4 := rfl
  have hsym : ∀ i j, held4 i j = held4 j i := by intro i j; fin_cases i <;> fin_cases j <;> rfl
  have ht : LS.trainInd 4 (some [3]) = [0, 1, 2] := by decide
  have htr : Spec.training 4 (some [3]) = {0, 1, 2} := by decide
  have hp : Spec.present (Spec.training 4 (some [3])) held4 3 = {0, 1, 2} := by
    rw [htr]
    ext c
    simp only [Spec.present, Finset.mem_filter, Finset.mem_insert, Finset.mem_singleton, and_iff_left_iff_imp]
    rintro (rfl | rfl | rfl)
    · exact ⟨by decide, by rw [v0]; norm_num⟩
    · exact ⟨by decide, by rw [v1]; norm_num⟩
    · exact ⟨by decide, by rw [v2]; norm_num⟩
  refine ⟨hS, hsym, ?_, ?_⟩
  · rw [hp]
    unfold Spec.stdDev
    rw [Real.sqrt_ne_zero (variance_nonneg _ _)]
    have hc : (({0, 1, 2} : Finset (Fin 4)).card : ℝ) = 3 := by
      have : ({0, 1, 2} : Finset (Fin 4)).card = 3 := by decide
      rw [this]
      norm_num
    unfold Spec.variance Spec.meanOver
    rw [hc, Finset.sum_insert (by decide), Finset.sum_pair (by decide), Finset.sum_insert (by decide), Finset.sum_pair (by decide),
      w0, w1, w2]
    norm_num
  · refine ⟨_, gaussi_sparse_ok F (by norm_num) _ hS "similarity" (Or.inl rfl) 0 30 (some [3]), ?_⟩
    · have hn : colNnz held4 [0, 1, 2] 3 = 2 := by
        unfold colNnz
        have : ([0, 1, 2] : List (Fin 4)).filter (fun i => decide (held4 i 3 ≠ 0)) = [0, 1, 2] := by
          simp [v0, v1, v2]
        rw [this]
        norm_num
      have hm1 : colMoment 1 held4 [0, 1, 2] 3 = .fin (1 / 4) := by
        unfold colMoment
        rw [hn]
        simp only [List.map_cons, List.map_nil, List.sum_cons, List.sum_nil, v0, v1, v2, XR.div]
        norm_num
      have hm2 : colMoment 2 held4 [0, 1, 2] 3 = .fin (-1 / 16) := by
        unfold colMoment
        rw [hn]
        simp only [List.map_cons, List.map_nil, List.sum_cons, List.sum_nil, v0, v1, v2, XR.div]
        norm_num
      have hv : XR.sqrt (colVar held4 [0, 1, 2] 3) = .nan := by
        unfold colVar
        rw [hm1, hm2]
        simp only [XR.mul, XR.sub, XR.neg, XR.add, XR.sqrt]
        norm_num
      have hmn : ∀ a : XR ℝ, XR.mul a .nan = .nan := fun a => by cases a <;> rfl
      show (if (0 : Fin 4) = 3 then XR.fin 1 else gaussCell F held4 (LS.trainInd 4 (some [3])) 0 3) = .nan
      rw [if_neg (by decide), ht]
      unfold gaussCell
      rw [hv]
      have : normCdf F (held4 3 0) (colMoment 1 held4 [0, 1, 2] 3) .nan = .nan := by rw [hm1]; rfl
      rw [this, zeroMissing, zeroMissing, if_neg (show held4 3 0 ≠ 0 by rw [w0]; norm_num), hmn]

/-- C103: the claim that sparse distance matrices are rejected does not hold: both variants silently treat the values as
similarities. -/
theorem C103_violated (F : Dists) {n : ℕ} (hn : 0 < n) (S : Fin n → Fin n → ℝ) (hS : ∀ i, S i i = 1) (ss mn : ℤ)
    (test : Option (List ℤ)) : ∃ M G : Fin n → Fin n → XR ℝ,
      gaussi F (.mat true n n S) "distance" ss mn test none = .ok ⟨n, n, M⟩ ∧
      gaussi F (.mat true n n S) "similarity" ss mn test none = .ok ⟨n, n, M⟩ ∧
      gammai F (.mat true n n S) "distance" mn test = .ok ⟨n, G⟩ ∧
      gammai F (.mat true n n S) "similarity" mn test = .ok ⟨n, G⟩ := by
  exact ⟨_, _, gaussi_sparse_ok F hn S hS _ (Or.inr rfl) ss mn test, gaussi_sparse_ok F hn S hS _ (Or.inl rfl) ss mn test,
    gammai_sparse_ok F hn S hS _ (Or.inr rfl) mn test, gammai_sparse_ok F hn S hS _ (Or.inl rfl) mn test⟩

/-- C104: sparse matrices with a self similarity other than one are rejected by all variants. -/
theorem C104_rejects (F : Dists) {n : ℕ} (S : Fin n → Fin n → ℝ) (i : Fin n) (hi : S i i ≠ 1) (metric : String)
    (hm : Spec.IsMetric metric) (ss mn : ℤ) (test : Option (List ℤ)) :
    gaussi F (.mat true n n S) metric ss mn test none = .error .valueError
      ∧ gammai F (.mat true n n S) metric mn test = .error .valueError
      ∧ gumbelSparse S mn (LS.trainInd n test) = .error .valueError := by
  have hb : badDiag S := Or.inr ⟨i, hi⟩
  refine ⟨?_, ?_, ?_⟩
  · rw [gaussi_sparse F S _ hm, gaussiSparse, if_pos hb]
    rfl
  · rw [gammai_sparse F S _ hm, gammaiSparse, if_pos hb]
    rfl
  · rw [gumbelSparse, if_pos hb]

example : half3 0 1 ≠ 1 := by norm_num [half3]

/-- Three objects without missing similarities, different for each object. -/
noncomputable def sim3 : Fin 3 → Fin 3 → ℝ := ![![1, 1 / 2, 1 / 4], ![1 / 2, 1, 3 / 4], ![1 / 4, 3 / 4, 1]]

theorem sim3_vals : sim3 0 1 = 1 / 2 ∧ sim3 0 2 = 1 / 4 ∧ sim3 1 0 = 1 / 2 ∧ sim3 1 2 = 3 / 4 ∧ sim3 2 0 = 1 / 4 ∧
    sim3 2 1 = 3 / 4 := ⟨rfl, rfl, rfl, rfl, rfl, rfl⟩

theorem sim3_facts : (∀ i, sim3 i i = 1) ∧ (∀ i j, sim3 i j = sim3 j i) ∧ ∀ i j, sim3 i j ≠ 0 := by
  have d : ∀ i, sim3 i i = 1 := by intro i; fin_cases i <;> rfl
  refine ⟨d, ?_, ?_⟩
  · intro i j; fin_cases i <;> fin_cases j <;> rfl
  · have h : ∀ i j : Fin 3, i = j ∨ (i = 0 ∧ j = 1) ∨ (i = 0 ∧ j = 2) ∨ (i = 1 ∧ j = 0) ∨ (i = 1 ∧ j = 2) ∨ (i = 2 ∧ j = 0)
        ∨ (i = 2 ∧ j = 1) := by decide
    intro i j
    rcases h i j with rfl | ⟨rfl, rfl⟩ | ⟨rfl, rfl⟩ | ⟨rfl, rfl⟩ | ⟨rfl, rfl⟩ | ⟨rfl, rfl⟩ | ⟨rfl, rfl⟩
    · rw [d]; norm_num
    all_goals norm_num [sim3_vals]

theorem sim3_sq (j : Fin 3) :
    ∑ c ∈ Finset.univ.erase j, (sim3 c j - Spec.meanOver (Finset.univ.erase j) (fun c => sim3 c j)) ^ 2 ≠ 0 := by
  fin_cases j
  · show ∑ c ∈ Finset.univ.erase (0 : Fin 3), (sim3 c 0 - Spec.meanOver (Finset.univ.erase 0) (fun c => sim3 c 0)) ^ 2 ≠ 0
    rw [(mean3 _).1, erase3.1, Finset.sum_pair (by decide)]
    norm_num [sim3_vals]
  · show ∑ c ∈ Finset.univ.erase (1 : Fin 3), (sim3 c 1 - Spec.meanOver (Finset.univ.erase 1) (fun c => sim3 c 1)) ^ 2 ≠ 0
    rw [(mean3 _).2.1, erase3.2.1, Finset.sum_pair (by decide)]
    norm_num [sim3_vals]
  · show ∑ c ∈ Finset.univ.erase (2 : Fin 3), (sim3 c 2 - Spec.meanOver (Finset.univ.erase 2) (fun c => sim3 c 2)) ^ 2 ≠ 0
    rw [(mean3 _).2.2, erase3.2.2, Finset.sum_pair (by decide)]
    norm_num [sim3_vals]

theorem card3 (j : Fin 3) : (Finset.univ.erase j).card = 2 := by fin_cases j <;> decide

theorem sim3_std (j : Fin 3) : Spec.stdDev (Finset.univ.erase j) (fun c => sim3 c j) ≠ 0 := by
  unfold Spec.stdDev
  rw [Real.sqrt_ne_zero (variance_nonneg _ _)]
  unfold Spec.variance
  rw [card3]
  exact div_ne_zero (sim3_sq j) (by norm_num)

theorem sim3_present (j : Fin 3) : Spec.present Finset.univ sim3 j = Finset.univ.erase j := by
  ext c
  simp [Spec.present, sim3_facts.2.2]

example : ∀ j, Spec.stdDev (Spec.present Finset.univ sim3 j) (fun c => sim3 c j) ≠ 0 := fun j => by
  rw [sim3_present]; exact sim3_std j

example : gaussi simple (.mat true 3 3 sim3) "similarity" 0 30 none none
    = gaussi simple (.mat false 3 3 sim3) "similarity" 0 30 none none :=
  C100_complete_partial simple (by norm_num) sim3 sim3_facts.1 sim3_facts.2.1 sim3_facts.2.2 0 30 30 sim3_std

end HubToolbox.MPPar
