import Verif.MPPar.SparseMin
import Verif.MPPar.Sample

/-!
# C195: sparse Gumbel variant; C98 for samples
-/

set_option autoImplicit false

namespace HubToolbox.MPPar

open HubToolbox

/-- Values of the Gumbel variant for positive spread. -/
theorem gumCell_fin {n : ℕ} (S : Fin n → Fin n → ℝ) (train : List (Fin n)) (hnd : train.Nodup)
    (hS : ∀ i, S i i = 1) (i j : Fin n) (ht : ∀ k, k = i ∨ k = j → k ∈ train)
    (h2 : ∀ k, k = i ∨ k = j → 2 ≤ (Spec.present train.toFinset S k).card)
    (hva : ∀ k, k = i ∨ k = j → Spec.sampleVariance (Spec.present train.toFinset S k) (fun c => S c k) ≠ 0) :
    gumCell S train i j
      = .fin ((if S i j = 0 then 0 else Spec.gumbelProb (Spec.present train.toFinset S i) (fun c => S c i) (S i j))
          * if S j i = 0 then 0 else Spec.gumbelProb (Spec.present train.toFinset S j) (fun c => S c j) (S j i)) := by
  have h1 : ∀ k : Fin n, k = i ∨ k = j → ∀ x : ℝ, zeroMissing x (gumbelCdf x
      (XR.sub (colMoment 1 S train k) (XR.mul (.fin Real.eulerMascheroniConstant)
        (XR.div (XR.mul (XR.sqrt (colVar1 S train k)) (.fin √6)) (.fin Real.pi))))
      (XR.div (XR.mul (XR.sqrt (colVar1 S train k)) (.fin √6)) (.fin Real.pi)))
      = .fin (if x = 0 then 0 else Spec.gumbelProb (Spec.present train.toFinset S k) (fun c => S c k) x) := by
    intro k hk x
    unfold zeroMissing
    by_cases hx : x = 0
    · simp [hx]
    have hne : (Spec.present train.toFinset S k).Nonempty := Finset.card_pos.mp (by have := h2 k hk; omega)
    have hv0 := sampleVariance_nonneg _ (fun c => S c k) (h2 k hk)
    have hv : 0 < √(Spec.sampleVariance (Spec.present train.toFinset S k) (fun c => S c k)) :=
      Real.sqrt_pos.2 (lt_of_le_of_ne hv0 (Ne.symm (hva k hk)))
    have hb : √(Spec.sampleVariance (Spec.present train.toFinset S k) (fun c => S c k)) * √6 / Real.pi ≠ 0 := by positivity
    rw [if_neg hx, if_neg hx, colMoment_eq S train hnd k (ht k hk) (hS k) hne 1 one_ne_zero,
      colVar1_eq S train hnd k (ht k hk) (hS k) (h2 k hk), sqrt_fin hv0]
    simp only [XR.mul, XR.div, Real.pi_ne_zero, if_false, XR.sub, XR.neg, XR.add, gumbelCdf, hb, XR.exp, pow_one]
    unfold Spec.gumbelProb
    simp only [sub_eq_add_neg]
  unfold gumCell
  simp only [h1 i (Or.inl rfl), h1 j (Or.inr rfl)]
  rfl

theorem gumbelProb_unit {ι : Type} (N : Finset ι) (f : ι → ℝ) (x : ℝ) :
    0 < Spec.gumbelProb N f x ∧ Spec.gumbelProb N f x < 1 := by
  unfold Spec.gumbelProb
  exact ⟨Real.exp_pos _, Real.exp_zero ▸ Real.exp_lt_exp.2 (neg_lt_zero.2 (Real.exp_pos _))⟩

/-- **C195** (partial): for a symmetric sparse similarity matrix in which every object has more than `min_nnz` values, of which
at least two belong to other objects and are not all the same, the Gumbel variant is finite, symmetric, has entries in `[0,1]`,
keeps missing values missing and is the Mutual Proximity of the fitted Gumbel distributions for all others, hence less than
one. The full claim has no conditions on the number and spread of values (see `C105_violated_pair`). -/
theorem C195_valid_partial {n : ℕ} (hn : 0 < n) (S : Fin n → Fin n → ℝ) (hS : ∀ i, S i i = 1)
    (hsym : ∀ i j, S i j = S j i) (mn : ℤ) (hmn : ∀ i, mn < (Spec.rowCount S i : ℤ))
    (h2 : ∀ j, 2 ≤ (Spec.present Finset.univ S j).card)
    (hva : ∀ j, Spec.sampleVariance (Spec.present Finset.univ S j) (fun c => S c j) ≠ 0) :
    ∃ M : Fin n → Fin n → ℝ, gumbelSparse S mn (LS.trainInd n none) = .ok (fun i j => .fin (M i j))
      ∧ (∀ i j, M i j = M j i) ∧ (∀ i, M i i = 1) ∧ (∀ i j, i ≠ j → S i j = 0 → M i j = 0)
      ∧ ∀ i j, i ≠ j → S i j ≠ 0 → 0 < M i j ∧ M i j < 1 ∧ M i j = Spec.mutualProximity "similarity"
        (Spec.gumbelProb (Spec.present Finset.univ S i) (S i) (S i j))
        (Spec.gumbelProb (Spec.present Finset.univ S j) (S j) (S i j)) := by
  have hcol : ∀ i, (fun c => S c i) = S i := fun i => funext fun c => hsym c i
  have hcell : ∀ i j, gumCell S (List.finRange n) i j
      = .fin (if S i j = 0 then 0 else Spec.gumbelProb (Spec.present Finset.univ S i) (S i) (S i j)
        * Spec.gumbelProb (Spec.present Finset.univ S j) (S j) (S i j)) := by
    intro i j
    rw [gumCell_fin S _ (List.nodup_finRange n) hS i j (fun k _ => List.mem_finRange k)]
    · rw [finRange_toFinset, hcol, hcol, hsym j i]
      split_ifs <;> simp
    · rw [finRange_toFinset]; exact fun k _ => h2 k
    · rw [finRange_toFinset]; exact fun k _ => hva k
  have hok := gumbelSparse_eq hn S hS mn (LS.trainInd n none)
  have e : sparseFill mn S (gumCell S (LS.trainInd n none)) = fun i j => .fin (if i = j then 1 else
      if S i j = 0 then 0 else (Spec.gumbelProb (Spec.present Finset.univ S i) (S i) (S i j)
        * Spec.gumbelProb (Spec.present Finset.univ S j) (S j) (S i j))) := by
    funext i j
    rw [sparseFill_apply, nnz_eq, nnz_eq, if_neg (hmn i).not_ge, if_neg (hmn j).not_ge]
    have h1 : gumCell S (LS.trainInd n none) i j = _ := hcell i j
    have h2 : gumCell S (LS.trainInd n none) j i = _ := (gumCell_comm S _ j i).trans (hcell i j)
    rw [h1, h2]
    split_ifs <;> rfl
  rw [e] at hok
  refine ⟨_, hok, ?_, ?_, ?_, ?_⟩
  · intro i j
    by_cases hij : i = j
    · simp [hij]
    · simp only [hij, Ne.symm hij, if_false, hsym j i]
      rw [mul_comm]
  · intro i
    simp
  · intro i j hij h0
    simp [hij, h0]
  · intro i j hij h0
    have hi := gumbelProb_unit (Spec.present Finset.univ S i) (S i) (S i j)
    have hj := gumbelProb_unit (Spec.present Finset.univ S j) (S j) (S i j)
    simp only [hij, h0, if_false, Spec.mutualProximity, if_true]
    exact ⟨mul_pos hi.1 hj.1, mul_lt_one_of_nonneg_of_lt_one_left hi.1.le hi.2 hj.2.le, trivial⟩

example : (∀ j, 2 ≤ (Spec.present Finset.univ sim3 j).card) ∧
    (∀ j, Spec.sampleVariance (Spec.present Finset.univ sim3 j) (fun c => sim3 c j) ≠ 0) := by
  refine ⟨fun j => ?_, fun j => ?_⟩
  · rw [sim3_present, card3]
  · rw [sim3_present]
    unfold Spec.sampleVariance
    rw [card3]
    exact div_ne_zero (sim3_sq j) (by norm_num)

/-- C98 for samples: sparse input, other shapes than those of the sample, and unknown metrics are rejected. -/
theorem C98_rejects_sample (F : Dists) {n m s : ℕ} (D : Fin n → Fin m → ℝ) (v : Fin s → ℤ) (metric : String)
    (test : Option (Σ t : ℕ, Fin t → ℤ)) (ss mn : ℤ) (test' : Option (List ℤ)) :
    (n < m → gaussiSample F (.mat false n m D) (some ⟨s, v⟩) metric test = .error .valueError) ∧
    (m ≤ n → m ≠ s → gaussiSample F (.mat false n m D) (some ⟨s, v⟩) metric test = .error .typeError) ∧
    gaussiSample F (.mat false n m D) none metric test = .error .typeError ∧
    gaussiSample F (.mat true n m D) (some ⟨s, v⟩) metric test = .error .typeError ∧
    (m ≤ n → m = s → ¬ Spec.IsMetric metric →
      gaussiSample F (.mat false n m D) (some ⟨s, v⟩) metric test = .error .valueError ∧
      gaussi F (.mat false n m D) metric ss mn test' (some ⟨s, v⟩) = .error .valueError) := by
  refine ⟨fun h => ?_, fun h h' => ?_, rfl, rfl, fun h h' hm => ?_⟩
  · simp [gaussiSample, LS.checkSample, h, bind, Except.bind]
  · simp [gaussiSample, LS.checkSample, not_lt.2 h, h', bind, Except.bind]
  · have hc : checkValidMetric metric = .error .valueError := by
      unfold checkValidMetric
      unfold Spec.IsMetric at hm
      push Not at hm
      simp [hm.1, hm.2]
      try rfl
    subst h'
    constructor
    · simp [gaussiSample, LS.checkSample, not_lt.2 h, hc, bind, Except.bind]
    · simp [gaussi, LS.checkSample, not_lt.2 h, hc, bind, Except.bind]

example : ¬ Spec.IsMetric "euclidean" := by
  unfold Spec.IsMetric
  decide

end HubToolbox.MPPar
