import Verif.Knn.TestSet
import Verif.Knn.RPrecisionProps

/-!
# C55: what the predictions of `predict` are, C60: all labels returned by `r_precision`

The predictions of `predict` are numbers of smaller labels, for all label sets. `r_precision` returns the labels of the nearest neighbours
exactly for the points with positive R-precision.
-/

set_option autoImplicit false

namespace HubToolbox.Knn

open Spec

variable {K : Type} [Field K] [LinearOrder K] [IsStrictOrderedRing K] {n : ℕ}

/-- **C55**, for all label sets: a prediction of `predict` is the number of the labels which are smaller than the label of one of the points. -/
theorem C55_rank_partial {c : ℕ} (srt : ArgSort (XR K)) (rnd : Rnd) (D : Fin n → Fin n → XR K) (y : Fin n → Fin c → ℤ)
    (ks : List ℤ) (hk : ∀ k ∈ ks, 1 ≤ k) (metric : String) (hm : metric = "distance" ∨ metric = "similarity") :
    ∃ r, predict srt rnd D y (.list ks) metric none = .ok r ∧
      ∀ j, j < ks.length → ∀ i l, ∃ x, r.yPred j i l = ((Finset.univ.image (allLabels y)).filter (· < y x l)).card := by
  refine ⟨_, predict_ok srt rnd D y ks hk metric hm, ?_⟩
  intro j hj i l
  have hlen : (predNN srt rnd metric ks D i).length = ks.length := nnLists_length _ _ _ _ _
  have hN : (predNN srt rnd metric ks D i).getD j [] ≠ [] := by
    rw [List.getD_eq_getElem _ _ (by omega)]
    exact predNN_ne_nil srt rnd metric ks hk D i _ (List.getElem_mem _)
  have hne : ((predNN srt rnd metric ks D i).getD j []).map (fun x => encode (predLabels y) (y x l)) ≠ [] := by
    rw [ne_eq, List.map_eq_nil_iff]; exact hN
  obtain ⟨x, _, hx⟩ := List.mem_map.1 (vote_spec 0 _ hne).2
  refine ⟨x, ?_⟩
  simp only
  rw [← hx]
  unfold predLabels
  rw [encode_eq_rank _ _ (mem_predLabels y x l)]
  congr 1
  ext v
  simp [List.mem_flatMap, List.mem_ofFn, allLabels]

/-- The class numbers of the labels 5 and 9 are 0 and 1, which are no labels. -/
example : ((Finset.univ.image (allLabels (![![5], ![9], ![5]] : Fin 3 → Fin 1 → ℤ))).filter (· < 5)).card = 0 ∧
    ((Finset.univ.image (allLabels (![![5], ![9], ![5]] : Fin 3 → Fin 1 → ℤ))).filter (· < 9)).card = 1 := by
  decide +kernel

/-- **C60**, all labels: a point whose self similarity is strictly the largest of its row has `R` nearest neighbours `N`, the nearest first.
If one of them has the label of the point, the labels returned are theirs, and no labels are returned otherwise. -/
theorem C60_exact (o : ArgPart (XR K)) (rnd : Rnd) (S : Fin n → Fin n → XR K) (y : Fin n → ℤ) (w : ℕ) (hy : HasPair y) :
    ∃ r, rPrecision o rnd (.mat true n n S) (.vec n y) "similarity" w = .ok ⟨n, r⟩ ∧
      ∀ i, (∀ x, (S i x).isFinite = true) → S i i ≠ .fin 0 → (∀ x, x ≠ i → S i x ≠ .fin 0 → S i x < S i i) →
        1 ≤ r.relevantItems i → ∃ N, IsKNNFirst "similarity" (S i) (Finset.univ.filter (fun x => x ≠ i ∧ S i x ≠ .fin 0)) (r.relevantItems i) N ∧
          ((∃ x ∈ N, y x = y i) → ∀ a : Fin w, r.yPred i a = (N.map y)[a.val]?) ∧
          ((∀ x ∈ N, y x ≠ y i) → ∀ a : Fin w, r.yPred i a = none) := by
  rw [rPrecision_eq]
  have hw : ((List.finRange n).map (relevant y)).sum ≠ 0 := fun h0 => (wsum_eq_zero y).1 h0 hy
  rw [if_neg hw]
  refine ⟨_, rfl, ?_⟩
  intro i hf hii hmax hR
  simp only at hR ⊢
  refine ⟨rNeighbours o rnd S (relevant y i) i, rNeighbours_spec o rnd S (relevant y i) hR i hf hii hmax, ?_, ?_⟩
  · rintro ⟨x, hx, hxi⟩ a
    unfold rWorker
    simp only [if_neg (show relevant y i ≠ 0 by omega)]
    rw [if_neg]
    · simp only [List.getElem?_take, if_pos a.isLt]
    · intro h0
      rw [List.countP_eq_zero] at h0
      exact h0 (y x) (List.mem_map.2 ⟨x, hx, rfl⟩) (by simpa using hxi)
  · intro hno a
    unfold rWorker
    simp only [if_neg (show relevant y i ≠ 0 by omega)]
    rw [if_pos]
    rw [List.countP_eq_zero]
    intro v hv
    obtain ⟨x, hx, rfl⟩ := List.mem_map.1 hv
    simpa using hno x hx

end HubToolbox.Knn
