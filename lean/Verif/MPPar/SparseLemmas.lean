import Verif.MPPar.Sample

/-!
# Lemmas about parametric Mutual Proximity of sparse matrices
-/

set_option autoImplicit false

namespace HubToolbox.MPPar

open HubToolbox

theorem foldl_if {n : ℕ} (p : Fin n → Prop) [DecidablePred p] (f : Fin n → Fin n → XR ℝ) (l : List (Fin n))
    (M : Fin n → Fin n → XR ℝ) (a b : Fin n) :
    l.foldl (fun (M : Fin n → Fin n → XR ℝ) (i : Fin n) => if p i then M else Np.setRowFrom M i i.val (f i)) M a b
      = if a ∈ l ∧ ¬ p a ∧ a ≤ b then f a b else M a b := by
  induction l generalizing M with
  | nil => simp
  | cons x l ih =>
    rw [List.foldl_cons, ih]
    by_cases hx : p x
    · simp only [if_pos hx, List.mem_cons]
      by_cases hax : a = x
      · subst hax
        simp [hx]
      · simp [hax]
    · simp only [if_neg hx, List.mem_cons]
      by_cases hax : a = x
      · subst hax
        by_cases hab : a ≤ b
        · simp [hx, hab, Np.setRowFrom]
        · have : ¬ a.val ≤ b.val := hab
          simp [hab, Np.setRowFrom, this]
      · simp [hax, Np.setRowFrom]

theorem sparseFill_apply {n : ℕ} (mn : ℤ) (S : Fin n → Fin n → ℝ) (f : Fin n → Fin n → XR ℝ) (i j : Fin n) :
    sparseFill mn S f i j = if (MPEmp.nnz (S i) : ℤ) ≤ mn then .fin (S i j) else if i = j then .fin 1
      else if i < j then f i j else if (MPEmp.nnz (S j) : ℤ) ≤ mn then .fin 0 else f j i := by
  unfold sparseFill
  simp only [foldl_if (fun i => (MPEmp.nnz (S i) : ℤ) ≤ mn), List.mem_finRange, true_and]
  by_cases hi : (MPEmp.nnz (S i) : ℤ) ≤ mn
  · simp [hi]
  rw [if_neg hi, if_neg hi]
  rcases lt_trichotomy i j with h | h | h
  · simp [hi, h.le, h.not_ge, h, h.ne, h.ne']
  · subst h
    simp [hi, XR.add]
    norm_num
  · by_cases hj : (MPEmp.nnz (S j) : ℤ) ≤ mn
    · simp [hj, h.not_ge, h.not_gt, h.ne']
    · simp [hj, h.le, h.not_ge, h.not_gt, h.ne']

theorem nnz_eq {n : ℕ} (S : Fin n → Fin n → ℝ) (i : Fin n) : MPEmp.nnz (S i) = Spec.rowCount S i := by
  unfold MPEmp.nnz Spec.rowCount
  rw [Np.countTrue_eq_card]
  simp

theorem colNnz_eq {n : ℕ} (S : Fin n → Fin n → ℝ) (train : List (Fin n)) (hnd : train.Nodup) (j : Fin n) (hjt : j ∈ train)
    (hj : S j j = 1) : colNnz S train j = (Spec.present train.toFinset S j).card := by
  have h1 : (train.filter (fun i => decide (S i j ≠ 0))).length = (Spec.present train.toFinset S j).card + 1 := by
    rw [← List.toFinset_card_of_nodup (hnd.filter _),
      ← Finset.card_insert_of_notMem (a := j) (by simp [Spec.present])]
    congr 1
    ext c
    by_cases hc : c = j
    · subst hc; simp [hj, hjt]
    · simp [Spec.present, hc]
  unfold colNnz
  rw [h1]
  push_cast
  ring

theorem col_sum {n : ℕ} (S : Fin n → Fin n → ℝ) (train : List (Fin n)) (hnd : train.Nodup) (j : Fin n) (hjt : j ∈ train)
    (hj : S j j = 1) (p : ℕ) (hp : p ≠ 0) :
    (train.map (fun i => S i j ^ p)).sum - 1 = ∑ c ∈ Spec.present train.toFinset S j, S c j ^ p := by
  rw [← List.sum_toFinset _ hnd, ← Finset.add_sum_erase _ _ (List.mem_toFinset.mpr hjt), hj, one_pow, add_sub_cancel_left]
  symm
  refine Finset.sum_subset ?_ ?_
  · intro c hc
    simp only [Spec.present, Finset.mem_filter] at hc
    exact Finset.mem_erase.mpr ⟨hc.2.1, hc.1⟩
  · intro c hc hn
    have hcj := Finset.mem_erase.mp hc
    have : S c j = 0 := by
      by_contra h
      exact hn (Finset.mem_filter.mpr ⟨hcj.2, hcj.1, h⟩)
    rw [this, zero_pow hp]

theorem colMoment_eq {n : ℕ} (S : Fin n → Fin n → ℝ) (train : List (Fin n)) (hnd : train.Nodup) (j : Fin n)
    (hjt : j ∈ train) (hj : S j j = 1) (hne : (Spec.present train.toFinset S j).Nonempty) (p : ℕ) (hp : p ≠ 0) :
    colMoment p S train j = .fin (Spec.meanOver (Spec.present train.toFinset S j) (fun c => S c j ^ p)) := by
  have hc : ((Spec.present train.toFinset S j).card : ℝ) ≠ 0 := by exact_mod_cast (Finset.card_pos.mpr hne).ne'
  unfold colMoment
  rw [col_sum S train hnd j hjt hj p hp, colNnz_eq S train hnd j hjt hj]
  simp [XR.div, hc, Spec.meanOver]

theorem variance_eq {ι : Type} (N : Finset ι) (f : ι → ℝ) (hN : N.Nonempty) :
    Spec.meanOver N (fun c => f c ^ 2) - Spec.meanOver N f * Spec.meanOver N f = Spec.variance N f := by
  have hc : (N.card : ℝ) ≠ 0 := by exact_mod_cast (Finset.card_pos.mpr hN).ne'
  have hs : ∑ c ∈ N, f c = N.card * Spec.meanOver N f := by unfold Spec.meanOver; field_simp
  have h2 : ∑ c ∈ N, f c ^ 2 = N.card * Spec.meanOver N (fun c => f c ^ 2) := by unfold Spec.meanOver; field_simp
  have he : ∑ c ∈ N, (f c - Spec.meanOver N f) ^ 2
      = ∑ c ∈ N, f c ^ 2 - 2 * Spec.meanOver N f * ∑ c ∈ N, f c + N.card * Spec.meanOver N f ^ 2 := by
    rw [Finset.mul_sum, ← Finset.sum_sub_distrib, ← nsmul_eq_mul, ← Finset.sum_const, ← Finset.sum_add_distrib]
    exact Finset.sum_congr rfl fun c _ => by ring
  unfold Spec.variance
  rw [he, hs, h2]
  field_simp
  ring

theorem colVar_eq {n : ℕ} (S : Fin n → Fin n → ℝ) (train : List (Fin n)) (hnd : train.Nodup) (j : Fin n)
    (hjt : j ∈ train) (hj : S j j = 1) (hne : (Spec.present train.toFinset S j).Nonempty) :
    colVar S train j = .fin (Spec.variance (Spec.present train.toFinset S j) (fun c => S c j)) := by
  unfold colVar
  rw [colMoment_eq S train hnd j hjt hj hne 2 two_ne_zero, colMoment_eq S train hnd j hjt hj hne 1 one_ne_zero]
  simp only [pow_one]
  rw [← variance_eq _ _ hne]
  simp [XR.mul, XR.sub, XR.add, XR.neg, sub_eq_add_neg]

theorem colVar1_eq {n : ℕ} (S : Fin n → Fin n → ℝ) (train : List (Fin n)) (hnd : train.Nodup) (j : Fin n)
    (hjt : j ∈ train) (hj : S j j = 1) (h2 : 2 ≤ (Spec.present train.toFinset S j).card) :
    colVar1 S train j = .fin (Spec.sampleVariance (Spec.present train.toFinset S j) (fun c => S c j)) := by
  have hne : (Spec.present train.toFinset S j).Nonempty := Finset.card_pos.mp (by omega)
  have hc : ((Spec.present train.toFinset S j).card : ℝ) ≠ 0 := by exact_mod_cast (Finset.card_pos.mpr hne).ne'
  have hc1 : ((Spec.present train.toFinset S j).card : ℝ) - 1 ≠ 0 := by
    have : (2 : ℝ) ≤ (Spec.present train.toFinset S j).card := by exact_mod_cast h2
    linarith
  unfold colVar1
  rw [colVar_eq S train hnd j hjt hj hne, colNnz_eq S train hnd j hjt hj]
  simp only [XR.div, hc1, if_false, XR.mul]
  unfold Spec.variance Spec.sampleVariance
  congr 1
  field_simp

theorem not_badDiag {n : ℕ} (S : Fin n → Fin n → ℝ) (hn : 0 < n) (hS : ∀ i, S i i = 1) : ¬ badDiag S := by
  rintro (h | ⟨i, h⟩)
  · omega
  · exact h (hS i)

theorem gaussi_sparse (F : Dists) {n : ℕ} (S : Fin n → Fin n → ℝ) (metric : String) (hm : Spec.IsMetric metric) (ss mn : ℤ)
    (test : Option (List ℤ)) : gaussi F (.mat true n n S) metric ss mn test none
      = (gaussiSparse F S ss mn (LS.trainInd n test)).map (fun M => ⟨n, n, M⟩) := by
  unfold gaussi
  simp only [PyMat.checkSquare, check_ok hm, bind, Except.bind, pure, Except.pure, dif_pos, Fin.cast_eq_self, if_true]
  cases gaussiSparse F S ss mn (LS.trainInd n test) <;> rfl

theorem gammai_sparse (F : Dists) {n : ℕ} (S : Fin n → Fin n → ℝ) (metric : String) (hm : Spec.IsMetric metric) (mn : ℤ)
    (test : Option (List ℤ)) : gammai F (.mat true n n S) metric mn test
      = (gammaiSparse F S mn (LS.trainInd n test)).map (fun M => ⟨n, M⟩) := by
  unfold gammai
  simp only [PyMat.checkSquare, check_ok hm, bind, Except.bind, pure, Except.pure, dif_pos, Fin.cast_eq_self, if_true]
  cases gammaiSparse F S mn (LS.trainInd n test) <;> rfl

/-- One off-diagonal value of the normal variant. -/
noncomputable def gaussCell (F : Dists) {n : ℕ} (S : Fin n → Fin n → ℝ) (train : List (Fin n)) (i j : Fin n) : XR ℝ :=
  XR.mul (zeroMissing (S i j) (normCdf F (S i j) (colMoment 1 S train i) (XR.sqrt (colVar S train i))))
    (zeroMissing (S j i) (normCdf F (S j i) (colMoment 1 S train j) (XR.sqrt (colVar S train j))))

theorem gaussCell_comm (F : Dists) {n : ℕ} (S : Fin n → Fin n → ℝ) (train : List (Fin n)) (i j : Fin n) :
    gaussCell F S train i j = gaussCell F S train j i := mul_comm' _ _

theorem gaussiSparse_apply (F : Dists) {n : ℕ} (hn : 0 < n) (S : Fin n → Fin n → ℝ) (hS : ∀ i, S i i = 1) (ss mn : ℤ)
    (train : List (Fin n)) :
    gaussiSparse F S ss mn train = .ok (fun i j => if i = j then .fin 1 else gaussCell F S train i j) := by
  unfold gaussiSparse
  rw [if_neg (not_badDiag S hn hS)]
  refine congrArg Except.ok (funext fun i => funext fun j => ?_)
  have hneg : ∀ k : ℕ, ¬ (k : ℤ) ≤ -1 := fun k h => by omega
  rw [sparseFill_apply, if_neg (hneg _), if_neg (hneg _)]
  split_ifs
  · rfl
  · rfl
  · exact gaussCell_comm F S train j i

/-- One off-diagonal value of the Gamma variant. -/
noncomputable def gamCell (F : Dists) {n : ℕ} (S : Fin n → Fin n → ℝ) (train : List (Fin n)) (i j : Fin n) : XR ℝ :=
  let A := fun j => XR.div (XR.mul (colMoment 1 S train j) (colMoment 1 S train j)) (colVar1 S train j)
  let B := fun j => XR.div (colVar1 S train j) (colMoment 1 S train j)
  XR.mul (gamCdf F (S i j) (A i) (B i)) (gamCdf F (S j i) (A j) (B j))

theorem gamCell_comm (F : Dists) {n : ℕ} (S : Fin n → Fin n → ℝ) (train : List (Fin n)) (i j : Fin n) :
    gamCell F S train i j = gamCell F S train j i := mul_comm' _ _

theorem gammaiSparse_eq (F : Dists) {n : ℕ} (hn : 0 < n) (S : Fin n → Fin n → ℝ) (hS : ∀ i, S i i = 1) (mn : ℤ)
    (train : List (Fin n)) : gammaiSparse F S mn train = .ok (sparseFill mn S (gamCell F S train)) := by
  unfold gammaiSparse
  rw [if_neg (not_badDiag S hn hS)]
  rfl

/-- One off-diagonal value of the Gumbel variant. -/
noncomputable def gumCell {n : ℕ} (S : Fin n → Fin n → ℝ) (train : List (Fin n)) (i j : Fin n) : XR ℝ :=
  let beta := fun j => XR.div (XR.mul (XR.sqrt (colVar1 S train j)) (.fin √6)) (.fin Real.pi)
  let mu := fun j => XR.sub (colMoment 1 S train j) (XR.mul (.fin Real.eulerMascheroniConstant) (beta j))
  XR.mul (zeroMissing (S i j) (gumbelCdf (S i j) (mu i) (beta i))) (zeroMissing (S j i) (gumbelCdf (S j i) (mu j) (beta j)))

theorem gumCell_comm {n : ℕ} (S : Fin n → Fin n → ℝ) (train : List (Fin n)) (i j : Fin n) :
    gumCell S train i j = gumCell S train j i := mul_comm' _ _

theorem gumbelSparse_eq {n : ℕ} (hn : 0 < n) (S : Fin n → Fin n → ℝ) (hS : ∀ i, S i i = 1) (mn : ℤ)
    (train : List (Fin n)) : gumbelSparse S mn train = .ok (sparseFill mn S (gumCell S train)) := by
  unfold gumbelSparse
  rw [if_neg (not_badDiag S hn hS)]
  rfl

/-- Values of the normal variant for positive spread. -/
theorem gaussCell_fin (F : Dists) {n : ℕ} (S : Fin n → Fin n → ℝ) (train : List (Fin n)) (hnd : train.Nodup)
    (hS : ∀ i, S i i = 1) (i j : Fin n) (ht : ∀ k, k = i ∨ k = j → k ∈ train)
    (hsd : ∀ k, k = i ∨ k = j → Spec.stdDev (Spec.present train.toFinset S k) (fun c => S c k) ≠ 0)
    (hij : S i j ≠ 0) (hji : S j i ≠ 0) :
    gaussCell F S train i j
      = .fin (Spec.normalProb F.phi (Spec.present train.toFinset S i) (fun c => S c i) (S i j)
          * Spec.normalProb F.phi (Spec.present train.toFinset S j) (fun c => S c j) (S j i)) := by
  have h1 : ∀ k : Fin n, k = i ∨ k = j → ∀ x : ℝ, x ≠ 0 → zeroMissing x (normCdf F x (colMoment 1 S train k)
      (XR.sqrt (colVar S train k)))
      = .fin (Spec.normalProb F.phi (Spec.present train.toFinset S k) (fun c => S c k) x) := by
    intro k hk x hx
    have hne := nonempty_of_std (hsd k hk)
    have hpos : 0 < √(Spec.variance (Spec.present train.toFinset S k) (fun c => S c k)) :=
      lt_of_le_of_ne (Real.sqrt_nonneg _) (Ne.symm (hsd k hk))
    unfold zeroMissing
    rw [if_neg hx, colMoment_eq S train hnd k (ht k hk) (hS k) hne 1 one_ne_zero,
      colVar_eq S train hnd k (ht k hk) (hS k) hne, sqrt_fin (variance_nonneg _ _), normCdf_fin F _ _ _ hpos]
    unfold Spec.normalProb Spec.guard
    rw [if_neg (hsd k hk)]
    simp [Spec.stdDev]
  unfold gaussCell
  rw [h1 i (Or.inl rfl) _ hij, h1 j (Or.inr rfl) _ hji]
  rfl

/-- Values of the Gamma variant for positive mean and spread. -/
theorem gamCell_fin (F : Dists) {n : ℕ} (S : Fin n → Fin n → ℝ) (train : List (Fin n)) (hnd : train.Nodup)
    (hS : ∀ i, S i i = 1) (i j : Fin n) (ht : ∀ k, k = i ∨ k = j → k ∈ train)
    (h2 : ∀ k, k = i ∨ k = j → 2 ≤ (Spec.present train.toFinset S k).card)
    (hmu : ∀ k, k = i ∨ k = j → 0 < Spec.meanOver (Spec.present train.toFinset S k) (fun c => S c k))
    (hva : ∀ k, k = i ∨ k = j → Spec.sampleVariance (Spec.present train.toFinset S k) (fun c => S c k) ≠ 0) :
    gamCell F S train i j
      = .fin (Spec.gammaProb F.gamma (Spec.present train.toFinset S i) (fun c => S c i) (S i j)
          * Spec.gammaProb F.gamma (Spec.present train.toFinset S j) (fun c => S c j) (S j i)) := by
  have h1 : ∀ (k : Fin n), k = i ∨ k = j → ∀ x : ℝ, gamCdf F x
      (XR.div (XR.mul (colMoment 1 S train k) (colMoment 1 S train k)) (colVar1 S train k))
      (XR.div (colVar1 S train k) (colMoment 1 S train k))
      = .fin (Spec.gammaProb F.gamma (Spec.present train.toFinset S k) (fun c => S c k) x) := by
    intro k hk x
    have hne : (Spec.present train.toFinset S k).Nonempty := Finset.card_pos.mp (by have := h2 k hk; omega)
    have hv : 0 < Spec.sampleVariance (Spec.present train.toFinset S k) (fun c => S c k) :=
      lt_of_le_of_ne (sampleVariance_nonneg _ _ (h2 k hk)) (Ne.symm (hva k hk))
    rw [colMoment_eq S train hnd k (ht k hk) (hS k) hne 1 one_ne_zero, colVar1_eq S train hnd k (ht k hk) (hS k) (h2 k hk)]
    simp only [pow_one, XR.mul, XR.div, hv.ne', (hmu k hk).ne', if_false]
    rw [gamCdf_fin F x (div_pos (mul_pos (hmu k hk) (hmu k hk)) hv) (div_pos hv (hmu k hk))]
    unfold Spec.gammaProb Spec.guard
    rw [if_neg (hva k hk), sq]
  unfold gamCell
  simp only [h1 i (Or.inl rfl), h1 j (Or.inr rfl)]
  rfl

end HubToolbox.MPPar
