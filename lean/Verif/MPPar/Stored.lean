import Verif.MPPar.StoredModel
import Verif.MPPar.Sparse
import Verif.MPPar.Real

/-!
# Sparse parametric Mutual Proximity and explicitly stored zeros
-/

set_option autoImplicit false

namespace HubToolbox.Spec

/-- `P` is a set of places which contains all places of the values other than zero. -/
def StoredAt {n : ℕ} (P : Fin n → Fin n → Bool) (S : Fin n → Fin n → ℝ) : Prop := ∀ i j, S i j ≠ 0 → P i j = true

/-- Exactly the values other than zero are stored. -/
def OnlyValues {n : ℕ} (P : Fin n → Fin n → Bool) (S : Fin n → Fin n → ℝ) : Prop := ∀ i j, P i j = true ↔ S i j ≠ 0

end HubToolbox.Spec

namespace HubToolbox.MPPar

open HubToolbox Spec

theorem colNnzStored_eq {n : ℕ} {P : Fin n → Fin n → Bool} {S : Fin n → Fin n → ℝ} (h : OnlyValues P S) (train : List (Fin n)) (j : Fin n) :
    colNnzStored P train j = colNnz S train j := by
  unfold colNnzStored colNnz
  congr 3
  refine List.filter_congr (fun i _ => ?_)
  rw [Bool.eq_iff_iff, h i j, decide_eq_true_iff]

theorem storedPower {n : ℕ} {P : Fin n → Fin n → Bool} {S : Fin n → Fin n → ℝ} (h : StoredAt P S) {p : ℕ} (hp : p ≠ 0) (i j : Fin n) :
    (if P i j then S i j ^ p else 0) = S i j ^ p := by
  by_cases h0 : S i j = 0
  · simp [h0, hp]
  · rw [if_pos (h i j h0)]

theorem colMomentStored_eq {n : ℕ} {P : Fin n → Fin n → Bool} {S : Fin n → Fin n → ℝ} (h : OnlyValues P S) {p : ℕ} (hp : p ≠ 0)
    (train : List (Fin n)) (j : Fin n) : colMomentStored p P S train j = colMoment p S train j := by
  unfold colMomentStored colMoment
  simp only [storedPower (fun i j h0 => (h i j).2 h0) hp, colNnzStored_eq h]

theorem colVarStored_eq {n : ℕ} {P : Fin n → Fin n → Bool} {S : Fin n → Fin n → ℝ} (h : OnlyValues P S) (train : List (Fin n)) (j : Fin n) :
    colVarStored P S train j = colVar S train j := by
  unfold colVarStored colVar
  rw [colMomentStored_eq h two_ne_zero, colMomentStored_eq h one_ne_zero]

theorem colVar1Stored_eq {n : ℕ} {P : Fin n → Fin n → Bool} {S : Fin n → Fin n → ℝ} (h : OnlyValues P S) (train : List (Fin n)) (j : Fin n) :
    colVar1Stored P S train j = colVar1 S train j := by
  unfold colVar1Stored colVar1
  rw [colVarStored_eq h, colNnzStored_eq h]

theorem countTrue_stored {n : ℕ} {P : Fin n → Fin n → Bool} {S : Fin n → Fin n → ℝ} (h : OnlyValues P S) (i : Fin n) :
    Np.countTrue (P i) = MPEmp.nnz (S i) := by
  unfold MPEmp.nnz
  congr 1
  funext j
  rw [Bool.eq_iff_iff, h i j, decide_eq_true_iff]

theorem sparseFillStored_eq {n : ℕ} {P : Fin n → Fin n → Bool} {S : Fin n → Fin n → ℝ} (h : OnlyValues P S) (mn : ℤ) (f : Fin n → Fin n → XR ℝ) :
    sparseFillStored mn P S f = sparseFill mn S f := by
  unfold sparseFillStored sparseFill
  simp only [countTrue_stored h]

/-- **C262**, first part: without explicit zeros all three variants are functions of the matrix. -/
theorem C262_partial (F : Dists) {n : ℕ} {P : Fin n → Fin n → Bool} {S : Fin n → Fin n → ℝ} (h : OnlyValues P S) (ss mn : ℤ)
    (train : List (Fin n)) : gaussiStored F P S train = gaussiSparse F S ss mn train ∧ gammaiStored F P S mn train = gammaiSparse F S mn train ∧
      gumbelStored P S mn train = gumbelSparse S mn train := by
  refine ⟨?_, ?_, ?_⟩
  · unfold gaussiStored gaussiSparse
    simp only [colMomentStored_eq h one_ne_zero, colVarStored_eq h, sparseFillStored_eq h]
  · unfold gammaiStored gammaiSparse
    simp only [colMomentStored_eq h one_ne_zero, colVar1Stored_eq h, sparseFillStored_eq h]
  · unfold gumbelStored gumbelSparse
    simp only [colMomentStored_eq h one_ne_zero, colVar1Stored_eq h, sparseFillStored_eq h]

/-- **C262**: an explicit zero in the column of an object counts as a value when its mean similarity is estimated. With `z` explicit zeros in the
training rows, the mean of the values present gets multiplied by `c / (c + z)`, where `c` is their number. -/
theorem C262_mean {n : ℕ} {P : Fin n → Fin n → Bool} {S : Fin n → Fin n → ℝ} (h : StoredAt P S) {train : List (Fin n)} (hnd : train.Nodup)
    {j : Fin n} (hjt : j ∈ train) (hj : S j j = 1) (hne : (present train.toFinset S j).Nonempty) (z : ℕ)
    (hz : (train.toFinset.filter (fun i => P i j = true ∧ S i j = 0)).card = z) :
    colMomentStored 1 P S train j = .fin ((present train.toFinset S j).card / ((present train.toFinset S j).card + z)
      * meanOver (present train.toFinset S j) (fun c => S c j)) := by
  have hc : (0 : ℝ) < (present train.toFinset S j).card := by exact_mod_cast Finset.card_pos.mpr hne
  have hnum : colNnzStored P train j = (present train.toFinset S j).card + z := by
    have h1 : (train.filter (fun i => P i j)).length = ((present train.toFinset S j).card + 1) + z := by
      rw [← List.toFinset_card_of_nodup (hnd.filter _), ← Finset.card_insert_of_notMem (a := j) (s := present train.toFinset S j) (by simp [present]),
        ← hz, ← Finset.card_union_of_disjoint]
      · congr 1
        ext c
        simp only [List.mem_toFinset, List.mem_filter, Finset.mem_union, Finset.mem_insert, present, Finset.mem_filter]
        by_cases hcj : c = j
        · subst hcj
          have : P c c = true := h c c (by rw [hj]; exact one_ne_zero)
          simp [hjt, this]
        · by_cases h0 : S c j = 0
          · simp [hcj, h0]
          · simp [hcj, h0, h c j h0]
      · rw [Finset.disjoint_left]
        intro c h1 h2
        rw [Finset.mem_filter] at h2
        rcases Finset.mem_insert.1 h1 with rfl | h1
        · rw [hj] at h2; exact one_ne_zero h2.2.2
        · exact (Finset.mem_filter.1 h1).2.2 h2.2.2
    unfold colNnzStored
    rw [h1]
    push_cast
    ring
  unfold colMomentStored
  simp only [storedPower h one_ne_zero, hnum]
  rw [col_sum S train hnd j hjt hj 1 one_ne_zero]
  have hz0 : ((present train.toFinset S j).card : ℝ) + z ≠ 0 := by positivity
  simp only [XR.div, hz0, if_false, pow_one, meanOver]
  congr 1
  field_simp

/-- Every value of the normal variant, off the diagonal. -/
theorem gaussiStored_apply (F : Dists) {n : ℕ} (hn : 0 < n) (P : Fin n → Fin n → Bool) (S : Fin n → Fin n → ℝ) (hS : ∀ i, S i i = 1)
    (train : List (Fin n)) : ∃ M, gaussiStored F P S train = .ok M ∧ ∀ i j, i < j → M i j =
      XR.mul (zeroMissing (S i j) (normCdf F (S i j) (colMomentStored 1 P S train i) (XR.sqrt (colVarStored P S train i))))
        (zeroMissing (S j i) (normCdf F (S j i) (colMomentStored 1 P S train j) (XR.sqrt (colVarStored P S train j)))) := by
  unfold gaussiStored
  rw [if_neg (not_badDiag S hn hS)]
  refine ⟨_, rfl, ?_⟩
  intro i j hij
  unfold sparseFillStored
  simp only [foldl_if (fun i => (Np.countTrue (P i) : ℤ) ≤ -1), List.mem_finRange, true_and]
  have hneg : ∀ k : ℕ, ¬ (k : ℤ) ≤ -1 := fun k h => by omega
  have hz : ∀ a : XR ℝ, XR.add a (.fin 0) = a := by intro a; cases a <;> simp [XR.add]
  simp only [hneg, if_false, hij.le, hij.not_ge, not_false_eq_true, and_true, and_false, if_true, hij.ne', hz]

/-! ### Counterexamples -/

/-- Similarities of four objects. -/
noncomputable def four : Fin 4 → Fin 4 → ℝ :=
  ![![1, 1/2, 1/4, 0], ![1/2, 1, 1/4, 0], ![1/4, 1/4, 1, 1/2], ![0, 0, 1/2, 1]]

/-- The values other than zero. -/
def fourPlain : Fin 4 → Fin 4 → Bool :=
  ![![true, true, true, false], ![true, true, true, false], ![true, true, true, true], ![false, false, true, true]]

/-- The similarity zero of the first and the last object is stored. -/
def fourZero : Fin 4 → Fin 4 → Bool :=
  ![![true, true, true, true], ![true, true, true, false], ![true, true, true, true], ![true, false, true, true]]

theorem four_values (i j : Fin 4) : (fourPlain i j = true ↔ four i j ≠ 0) ∧ (four i j ≠ 0 → fourZero i j = true) := by
  fin_cases i <;> fin_cases j <;> simp [four, fourPlain, fourZero]

theorem four_moments (p : ℕ) (hp : p ≠ 0) (P : Fin 4 → Fin 4 → Bool) (h : StoredAt P four) (j : Fin 4) (c : ℕ)
    (hc : ((List.finRange 4).filter (fun i => P i j)).length = c + 1) (hc0 : c ≠ 0) :
    colMomentStored p P four (List.finRange 4) j = .fin ((four 0 j ^ p + four 1 j ^ p + four 2 j ^ p + four 3 j ^ p - 1) / c) := by
  have hc1 : (c : ℝ) ≠ 0 := by exact_mod_cast hc0
  unfold colMomentStored colNnzStored
  simp only [storedPower h hp, hc, ← Fin.sum_univ_def, Fin.sum_univ_four]
  push_cast
  simp only [add_sub_cancel_right, XR.div, hc1, if_false]

/-- **C262 is violated**: a stored zero is not treated as missing value. Whether the similarity zero of two objects is stored changes the similarity of
one of them to a third object. -/
theorem C262_violated (F : Dists) (hF : StrictMono F.phi) : OnlyValues fourPlain four ∧ StoredAt fourZero four ∧
    ∃ (M M' : Fin 4 → Fin 4 → XR ℝ) (x y : ℝ), gaussiStored F fourPlain four (List.finRange 4) = .ok M ∧
      gaussiStored F fourZero four (List.finRange 4) = .ok M' ∧ M 0 1 = .fin x ∧ M' 0 1 = .fin y ∧ x < y := by
  have hP : OnlyValues fourPlain four := fun i j => (four_values i j).1
  have hZ : StoredAt fourZero four := fun i j => (four_values i j).2
  have hP' : StoredAt fourPlain four := fun i j h => (hP i j).2 h
  have hdiag : ∀ i, four i i = 1 := by intro i; fin_cases i <;> simp [four]
  obtain ⟨M, hM, hv⟩ := gaussiStored_apply F (by norm_num) fourPlain four hdiag (List.finRange 4)
  obtain ⟨M', hM', hv'⟩ := gaussiStored_apply F (by norm_num) fourZero four hdiag (List.finRange 4)
  have e1 : √(1/64 : ℝ) = 1/8 := by rw [show (1/64 : ℝ) = (1/8)^2 by norm_num]; exact Real.sqrt_sq (by norm_num)
  have hpos : (0 : ℝ) < √(1/24) := Real.sqrt_pos.2 (by norm_num)
  have hlt : √(1/24 : ℝ) < 1/4 := by
    rw [show (1/4 : ℝ) = √((1/4)^2) from (Real.sqrt_sq (by norm_num)).symm]
    exact Real.sqrt_lt_sqrt (by norm_num) (by norm_num)
  have a0 : normCdf F (1/2) (colMomentStored 1 fourPlain four (List.finRange 4) 0) (XR.sqrt (colVarStored fourPlain four (List.finRange 4) 0))
      = .fin (F.phi 1) := by
    unfold colVarStored
    rw [four_moments 1 one_ne_zero _ hP' 0 2 (by decide) two_ne_zero, four_moments 2 two_ne_zero _ hP' 0 2 (by decide) two_ne_zero]
    have : XR.sub (XR.fin ((four 0 0 ^ 2 + four 1 0 ^ 2 + four 2 0 ^ 2 + four 3 0 ^ 2 - 1) / (2 : ℕ)))
        (XR.mul (XR.fin ((four 0 0 ^ 1 + four 1 0 ^ 1 + four 2 0 ^ 1 + four 3 0 ^ 1 - 1) / (2 : ℕ)))
          (XR.fin ((four 0 0 ^ 1 + four 1 0 ^ 1 + four 2 0 ^ 1 + four 3 0 ^ 1 - 1) / (2 : ℕ)))) = (XR.fin (1/64) : XR ℝ) := by
      simp [XR.sub, XR.mul, XR.add, XR.neg, four]; norm_num
    rw [this, sqrt_fin (by norm_num), e1, normCdf_fin F _ _ _ (by norm_num)]
    simp [four]; norm_num
  have a1 : ∀ P, P = fourPlain ∨ P = fourZero →
      normCdf F (1/2) (colMomentStored 1 P four (List.finRange 4) 1) (XR.sqrt (colVarStored P four (List.finRange 4) 1)) = .fin (F.phi 1) := by
    intro P hPP
    have hst : StoredAt P four := by rcases hPP with rfl | rfl; exacts [hP', hZ]
    have hc : ((List.finRange 4).filter (fun i => P i 1)).length = 2 + 1 := by rcases hPP with rfl | rfl <;> decide
    unfold colVarStored
    rw [four_moments 1 one_ne_zero _ hst 1 2 hc two_ne_zero, four_moments 2 two_ne_zero _ hst 1 2 hc two_ne_zero]
    have : XR.sub (XR.fin ((four 0 1 ^ 2 + four 1 1 ^ 2 + four 2 1 ^ 2 + four 3 1 ^ 2 - 1) / (2 : ℕ)))
        (XR.mul (XR.fin ((four 0 1 ^ 1 + four 1 1 ^ 1 + four 2 1 ^ 1 + four 3 1 ^ 1 - 1) / (2 : ℕ)))
          (XR.fin ((four 0 1 ^ 1 + four 1 1 ^ 1 + four 2 1 ^ 1 + four 3 1 ^ 1 - 1) / (2 : ℕ)))) = (XR.fin (1/64) : XR ℝ) := by
      simp [XR.sub, XR.mul, XR.add, XR.neg, four]; norm_num
    rw [this, sqrt_fin (by norm_num), e1, normCdf_fin F _ _ _ (by norm_num)]
    simp [four]; norm_num
  have a2 : normCdf F (1/2) (colMomentStored 1 fourZero four (List.finRange 4) 0) (XR.sqrt (colVarStored fourZero four (List.finRange 4) 0))
      = .fin (F.phi ((1/4) / √(1/24))) := by
    unfold colVarStored
    rw [four_moments 1 one_ne_zero _ hZ 0 3 (by decide) (by norm_num), four_moments 2 two_ne_zero _ hZ 0 3 (by decide) (by norm_num)]
    have : XR.sub (XR.fin ((four 0 0 ^ 2 + four 1 0 ^ 2 + four 2 0 ^ 2 + four 3 0 ^ 2 - 1) / (3 : ℕ)))
        (XR.mul (XR.fin ((four 0 0 ^ 1 + four 1 0 ^ 1 + four 2 0 ^ 1 + four 3 0 ^ 1 - 1) / (3 : ℕ)))
          (XR.fin ((four 0 0 ^ 1 + four 1 0 ^ 1 + four 2 0 ^ 1 + four 3 0 ^ 1 - 1) / (3 : ℕ)))) = (XR.fin (1/24) : XR ℝ) := by
      simp [XR.sub, XR.mul, XR.add, XR.neg, four]; norm_num
    rw [this, sqrt_fin (by norm_num), normCdf_fin F _ _ _ hpos]
    congr 3
    simp [four]; norm_num
  have h01 : four 0 1 = 1/2 := by simp [four]
  have h10 : four 1 0 = 1/2 := by simp [four]
  have hz : ∀ p, zeroMissing (1/2) p = p := by intro p; unfold zeroMissing; rw [if_neg (by norm_num)]
  refine ⟨hP, hZ, M, M', F.phi 1 * F.phi 1, F.phi ((1/4) / √(1/24)) * F.phi 1, hM, hM', ?_, ?_, ?_⟩
  · rw [hv 0 1 (by decide), h01, h10, hz, hz, a0, a1 _ (Or.inl rfl)]; rfl
  · rw [hv' 0 1 (by decide), h01, h10, hz, hz, a2, a1 _ (Or.inr rfl)]; rfl
  · have h1 : (1 : ℝ) < (1/4) / √(1/24) := by rw [lt_div_iff₀ hpos]; linarith
    exact mul_lt_mul_of_pos_right (hF h1) (lt_of_le_of_lt (F.phi_nonneg 0) (hF (by norm_num)))

/-! ### Non-vacuity -/

example : StrictMono scipy.phi := Prob.phi_strict

example : OnlyValues fourPlain four ∧ StoredAt fourZero four ∧ ¬ OnlyValues fourZero four :=
  ⟨fun i j => (four_values i j).1, fun i j => (four_values i j).2, fun h => by
    have := (h 0 3).1 (by decide)
    simp [four] at this⟩

example : (present (List.finRange 4).toFinset four 0).Nonempty := ⟨1, by simp [present, four]⟩

end HubToolbox.MPPar
