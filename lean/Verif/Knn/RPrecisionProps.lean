import Verif.Knn.RPrecision
import Verif.Knn.Props
import Verif.Knn.FMeasure

/-!
# Properties of R-precision
-/

set_option autoImplicit false
set_option linter.unusedSectionVars false

namespace HubToolbox.Knn
open Spec

variable {K : Type} [Field K] [LinearOrder K] [IsStrictOrderedRing K] {n : ℕ}

theorem countP_finRange (p : Fin n → Prop) [DecidablePred p] :
    (List.finRange n).countP (fun i => decide (p i)) = (Finset.univ.filter p).card := by
  rw [countP_eq_card (List.nodup_finRange n) p]
  simp

/-- The number of relevant items of point `i` is the number of other points with the same label. -/
theorem relevant_eq (y : Fin n → ℤ) (i : Fin n) :
    relevant y i = (Finset.univ.filter (fun j => j ≠ i ∧ y j = y i)).card := by
  unfold relevant
  rw [countP_finRange]
  have : (Finset.univ.filter (fun j => y j = y i)) = insert i (Finset.univ.filter (fun j => j ≠ i ∧ y j = y i)) := by
    ext j
    by_cases h : j = i
    · simp [h]
    · simp [h]
  rw [this, Finset.card_insert_of_notMem (by simp)]
  omega

theorem rNeighbours_length (o : ArgPart (XR K)) (rnd : Rnd) (S : Fin n → Fin n → XR K) (R : ℕ) (i : Fin n) :
    (rNeighbours o rnd S R i).length ≤ R := by
  unfold rNeighbours
  simp only
  split
  · rw [(rnd.again_perm i.val 0 _).length_eq]
    simp
  · simp

theorem rWorker_range (o : ArgPart (XR K)) (rnd : Rnd) (S : Fin n → Fin n → XR K) (y : Fin n → ℤ) (w : ℕ) (i : Fin n) :
    0 ≤ (rWorker o rnd S y w i).prec ∧ (rWorker o rnd S y w i).prec ≤ 1 := by
  unfold rWorker
  simp only
  split
  · exact ⟨le_rfl, zero_le_one⟩
  · rename_i hR
    split
    · exact ⟨le_rfl, zero_le_one⟩
    · have hR' : (0 : K) < relevant y i := by exact_mod_cast Nat.pos_of_ne_zero hR
      refine ⟨div_nonneg (Nat.cast_nonneg _) hR'.le, ?_⟩
      rw [div_le_one hR']
      have h1 := List.countP_le_length (p := fun v => decide (v = y i)) (l := (rNeighbours o rnd S (relevant y i) i).map y)
      have h2 := rNeighbours_length o rnd S (relevant y i) i
      rw [List.length_map] at h1
      exact_mod_cast h1.trans h2

/-- A call which passes the checks. -/
theorem rPrecision_eq (o : ArgPart (XR K)) (rnd : Rnd) (S : Fin n → Fin n → XR K) (y : Fin n → ℤ) (w : ℕ) :
    rPrecision o rnd (.mat true n n S) (.vec n y) "similarity" w
      = if ((List.finRange n).map (relevant y)).sum = 0 then .error .zeroDivisionError else .ok ⟨n,
        { macroAvg := if n = 0 then .nan
            else .fin (((List.finRange n).map (fun i => (rWorker o rnd S y w i).prec)).sum / (n : K))
          weighted := ((List.finRange n).map (fun i => (rWorker o rnd S y w i).prec * (relevant y i : K))).sum
            / (((List.finRange n).map (relevant y)).sum : ℕ)
          perItem := fun i => (rWorker o rnd S y w i).prec
          relevantItems := relevant y
          yPred := fun i => (rWorker o rnd S y w i).nn }⟩ := by
  have h1 : checkMatrixLabels (.mat true n n S) (.vec n y) = .ok (true, ⟨n, S, y⟩) := by
    simp [checkMatrixLabels]
  have h2 : checkValidMetric "similarity" = .ok () := rfl
  unfold rPrecision
  rw [h1, h2]
  by_cases hw : ((List.finRange n).map (relevant y)).sum = 0
  · rw [if_pos hw]
    exact if_pos hw
  · rw [if_neg hw]
    exact if_neg hw

/-- There is a pair of points with the same label. -/
def HasPair (y : Fin n → ℤ) : Prop := ∃ i j, j ≠ i ∧ y j = y i

theorem wsum_eq_zero (y : Fin n → ℤ) : ((List.finRange n).map (relevant y)).sum = 0 ↔ ¬ HasPair y := by
  rw [List.sum_eq_zero_iff]
  constructor
  · rintro h ⟨i, j, hji, hy⟩
    have := h (relevant y i) (List.mem_map_of_mem (List.mem_finRange i))
    rw [relevant_eq, Finset.card_eq_zero, Finset.filter_eq_empty_iff] at this
    exact this (Finset.mem_univ j) ⟨hji, hy⟩
  · intro h x hx
    obtain ⟨i, _, rfl⟩ := List.mem_map.1 hx
    rw [relevant_eq, Finset.card_eq_zero, Finset.filter_eq_empty_iff]
    rintro j - ⟨hji, hy⟩
    exact h ⟨i, j, hji, hy⟩

/-- **C58.** All returned R-precisions are in [0, 1]; the macro average is the mean, the weighted average is weighted by
the number of relevant items. If all labels are different the call fails. -/
theorem C58_range (o : ArgPart (XR K)) (rnd : Rnd) (S : Fin n → Fin n → XR K) (y : Fin n → ℤ) (w : ℕ) :
    (¬ HasPair y → rPrecision o rnd (.mat true n n S) (.vec n y) "similarity" w = .error .zeroDivisionError) ∧
    (HasPair y → ∃ r, rPrecision o rnd (.mat true n n S) (.vec n y) "similarity" w = .ok ⟨n, r⟩ ∧
      (∀ i, 0 ≤ r.perItem i ∧ r.perItem i ≤ 1) ∧
      (∀ i, r.relevantItems i = (Finset.univ.filter (fun j => j ≠ i ∧ y j = y i)).card) ∧
      (∃ v, r.macroAvg = .fin v ∧ 0 ≤ v ∧ v ≤ 1 ∧ v * n = ∑ i, r.perItem i) ∧
      0 ≤ r.weighted ∧ r.weighted ≤ 1 ∧
      r.weighted * ∑ i, (r.relevantItems i : K) = ∑ i, r.perItem i * (r.relevantItems i : K)) := by
  rw [rPrecision_eq]
  constructor
  · intro h
    rw [if_pos ((wsum_eq_zero y).2 h)]
  · intro h
    have hw : ((List.finRange n).map (relevant y)).sum ≠ 0 := fun h0 => (wsum_eq_zero y).1 h0 h
    rw [if_neg hw]
    have hn : n ≠ 0 := by
      obtain ⟨i, -⟩ := h
      intro h0; subst h0; exact i.elim0
    have hn' : (0 : K) < n := by exact_mod_cast Nat.pos_of_ne_zero hn
    have hw' : (0 : K) < (((List.finRange n).map (relevant y)).sum : ℕ) := by exact_mod_cast Nat.pos_of_ne_zero hw
    have hsum : ∀ f : Fin n → K, ((List.finRange n).map f).sum = ∑ i, f i := by
      intro f
      rw [← List.ofFn_eq_map, List.sum_ofFn]
    refine ⟨_, rfl, fun i => rWorker_range o rnd S y w i, fun i => relevant_eq y i, ?_, ?_⟩
    · refine ⟨_, if_neg hn, ?_⟩
      have := sum_range_aux (List.finRange n) (fun i => (rWorker o rnd S y w i).prec) (fun _ => 1)
        (fun _ _ => zero_le_one) (fun i => rWorker_range o rnd S y w i)
      simp only [mul_one] at this
      have h2 : ((List.finRange n).map (fun _ => (1 : K))).sum = n := by simp
      rw [h2] at this
      refine ⟨div_nonneg this.1 hn'.le, (div_le_one hn').2 this.2, ?_⟩
      rw [div_mul_cancel₀ _ hn'.ne', hsum]
    · have := sum_range_aux (List.finRange n) (fun i => (rWorker o rnd S y w i).prec) (fun i => (relevant y i : K))
        (fun _ _ => Nat.cast_nonneg _) (fun i => rWorker_range o rnd S y w i)
      have h2 : ((List.finRange n).map (fun i => (relevant y i : K))).sum
          = (((List.finRange n).map (relevant y)).sum : ℕ) := by
        rw [Nat.cast_list_sum, List.map_map]
        rfl
      rw [h2] at this
      refine ⟨div_nonneg this.1 hw'.le, (div_le_one hw').2 this.2, ?_⟩
      simp only
      rw [← hsum, ← hsum, h2, div_mul_cancel₀ _ hw'.ne']

example : HasPair ![(3 : ℤ), 4, 3] := ⟨0, 2, by decide, rfl⟩

/-- The neighbours used for a point whose self similarity is strictly the largest in its row. -/
theorem rNeighbours_spec (o : ArgPart (XR K)) (rnd : Rnd) (S : Fin n → Fin n → XR K) (R : ℕ) (hR : 1 ≤ R) (i : Fin n)
    (hf : ∀ x, (S i x).isFinite = true) (hii : S i i ≠ .fin 0)
    (hmax : ∀ x, x ≠ i → S i x ≠ .fin 0 → S i x < S i i) :
    IsKNNFirst "similarity" (S i) (Finset.univ.filter (fun x => x ≠ i ∧ S i x ≠ .fin 0)) R (rNeighbours o rnd S R i) := by
  have hperm := rnd.first_perm i.val (storedCols (S i))
  have hnd : (storedCols (S i)).Nodup := (List.nodup_finRange n).filter _
  have hmem : ∀ z, z ∈ rnd.first i.val (storedCols (S i)) ↔ S i z ≠ .fin 0 := by
    intro z
    rw [hperm.mem_iff]
    simp [storedCols]
  have h := sparseOrder_spec o (S i) [(R : ℤ)] (rnd.first i.val (storedCols (S i))) (hperm.nodup_iff.2 hnd)
    (fun z _ => hf z) i ((hmem i).2 hii) (fun z hz hzi => hmax z hzi ((hmem z).1 hz)) (R : ℤ) (by simp) (by omega)
  have h2 : (Finset.univ.filter (fun z => z ∈ rnd.first i.val (storedCols (S i)) ∧ z ≠ i))
      = Finset.univ.filter (fun z => z ≠ i ∧ S i z ≠ .fin 0) := by
    ext z; simp [hmem, and_comm]
  rw [h2, Int.toNat_natCast] at h
  unfold rNeighbours
  simp only
  split
  · rename_i h0
    -- no neighbour at all: the list is empty
    have hnil : (sparseOrder o (S i) [(R : ℤ)] (rnd.first i.val (storedCols (S i)))).take R = [] := by
      by_contra hne
      obtain ⟨x, hx⟩ := List.exists_mem_of_ne_nil _ hne
      rw [List.countP_eq_zero] at h0
      exact h0 x hx (hf x)
    rw [hnil] at h ⊢
    have := rnd.again_perm (m := n) i.val 0 []
    rw [List.perm_nil.1 this]
    exact h
  · exact h

/-- **C59.** If the self similarity of point `i` is strictly the largest one of its row, the R-precision of point `i` is
the fraction of points with its label among its `R` most similar neighbours, `R` being the number of other points with
its label. -/
theorem C59_exact (o : ArgPart (XR K)) (rnd : Rnd) (S : Fin n → Fin n → XR K) (y : Fin n → ℤ) (w : ℕ)
    (hy : HasPair y) :
    ∃ r, rPrecision o rnd (.mat true n n S) (.vec n y) "similarity" w = .ok ⟨n, r⟩ ∧
      ∀ i, (∀ x, (S i x).isFinite = true) → S i i ≠ .fin 0 → (∀ x, x ≠ i → S i x ≠ .fin 0 → S i x < S i i) →
        (r.relevantItems i = 0 → r.perItem i = 0) ∧
        (1 ≤ r.relevantItems i → ∃ N, IsKNNFirst "similarity" (S i)
            (Finset.univ.filter (fun x => x ≠ i ∧ S i x ≠ .fin 0)) (r.relevantItems i) N ∧
          r.perItem i * (r.relevantItems i : K) = ((N.countP (fun x => decide (y x = y i)) : ℕ) : K)) := by
  rw [rPrecision_eq]
  have hw : ((List.finRange n).map (relevant y)).sum ≠ 0 := fun h0 => (wsum_eq_zero y).1 h0 hy
  rw [if_neg hw]
  refine ⟨_, rfl, ?_⟩
  intro i hf hii hmax
  simp only
  constructor
  · intro h0
    unfold rWorker
    simp only [h0, if_true]
  · intro h1
    refine ⟨_, rNeighbours_spec o rnd S (relevant y i) h1 i hf hii hmax, ?_⟩
    have hR : relevant y i ≠ 0 := by omega
    have hR' : (relevant y i : K) ≠ 0 := by exact_mod_cast hR
    unfold rWorker
    simp only [if_neg hR]
    have hc : ((rNeighbours o rnd S (relevant y i) i).map y).countP (fun v => decide (v = y i))
        = (rNeighbours o rnd S (relevant y i) i).countP (fun x => decide (y x = y i)) := by
      rw [List.countP_map]
      rfl
    rw [hc]
    split
    · rename_i h0
      rw [h0]
      simp
    · simp only
      rw [div_mul_cancel₀ _ hR']

/-! ## C60: returned labels -/

/-- Labels returned for each point, empty if the call fails. -/
def rLabels {w : ℕ} (x : Py (Σ n, RRes K n w)) : List (List (Option ℤ)) :=
  match x with
  | .ok ⟨n, r⟩ => (List.finRange n).map (fun i => List.ofFn (r.yPred i))
  | .error _ => []

/-- Points 0 and 2 have label 5, point 1 has label 6; point 1 is most similar to point 0. -/
def exRS : Fin 3 → Fin 3 → XR ℚ := ![![.fin 4, .fin 3, .fin 1], ![.fin 3, .fin 4, .fin 2], ![.fin 1, .fin 2, .fin 4]]

/-- **C60 does not hold.** No labels are returned for point 0, although point 1 is its nearest neighbour. -/
theorem C60_violated :
    rLabels (rPrecision (ArgPart.ofInsertion _) Rnd.id (.mat true 3 3 exRS) (.vec 3 ![5, 6, 5]) "similarity" 1)
      = [[none], [none], [none]] := by decide +kernel

/-- **C60, the part which holds.** If the R-precision of a point is positive (and its self similarity is strictly the
largest in its row), the first returned label is the label of the most similar other point. Missing: points with
R-precision zero, and the order of the other labels. -/
theorem C60_partial (o : ArgPart (XR K)) (rnd : Rnd) (S : Fin n → Fin n → XR K) (y : Fin n → ℤ) (w : ℕ)
    (hy : HasPair y) :
    ∃ r, rPrecision o rnd (.mat true n n S) (.vec n y) "similarity" (w + 1) = .ok ⟨n, r⟩ ∧
      ∀ i, (∀ x, (S i x).isFinite = true) → S i i ≠ .fin 0 → (∀ x, x ≠ i → S i x ≠ .fin 0 → S i x < S i i) →
        r.perItem i ≠ 0 → ∃ x, r.yPred i 0 = some (y x) ∧ x ≠ i ∧ ∀ z, z ≠ i → S i z ≠ .fin 0 → S i z ≤ S i x := by
  rw [rPrecision_eq]
  have hw : ((List.finRange n).map (relevant y)).sum ≠ 0 := fun h0 => (wsum_eq_zero y).1 h0 hy
  rw [if_neg hw]
  refine ⟨_, rfl, ?_⟩
  intro i hf hii hmax hpos
  simp only at hpos ⊢
  have hR : relevant y i ≠ 0 := by
    intro h0
    apply hpos
    unfold rWorker
    simp only [h0, if_true]
  have hspec := rNeighbours_spec o rnd S (relevant y i) (by omega) i hf hii hmax
  unfold rWorker at hpos ⊢
  simp only [if_neg hR] at hpos ⊢
  split at hpos
  · exact absurd rfl hpos
  · rename_i hc
    rw [if_neg hc]
    simp only
    cases hN : rNeighbours o rnd S (relevant y i) i with
    | nil => rw [hN] at hc; exact absurd rfl hc
    | cons x t =>
      rw [hN] at hspec
      refine ⟨x, by simp, ((Finset.mem_filter.1 (hspec.mem x (by simp)).1).2).1, ?_⟩
      intro z hzi hz0
      have hz : z ∈ Finset.univ.filter (fun x => x ≠ i ∧ S i x ≠ .fin 0) := by simp [hzi, hz0]
      have key : Nearer "similarity" (S i x) (S i z) := by
        by_cases hzN : z ∈ x :: t
        · exact hspec.first x rfl z hzN
        · exact hspec.nearest x (by simp) z hz (hf z) hzN
      simpa [Nearer] using key

end HubToolbox.Knn
