import Verif.SNN.Examples

/-!
# C34 for all matrices of floats

Infinite values and `nan` are allowed. Neighbourhoods follow numpy's order of floats (`nan` is largest), and an object is as far from itself
as possible.
-/

set_option autoImplicit false

namespace HubToolbox.SNN

open HubToolbox

variable {K : Type} [Field K] [LinearOrder K] [IsStrictOrderedRing K]

/-- Row `i` with the value of the object itself replaced by the worst possible one. -/
def _root_.HubToolbox.Spec.selfLast {K : Type} (metric : String) {n : ℕ} (D : Fin n → Fin n → XR K) (i j : Fin n) : XR K :=
  if i = j then (if metric = "similarity" then .ninf else .pinf) else D i j

/-- **C34** for all floats: the fraction of common neighbours, symmetric, with the right diagonal and values `0/k, …, k/k`. -/
theorem C34_floats (w : World K) {n : ℕ} (D : Fin n → Fin n → XR K) (k : ℕ) (h1 : 1 ≤ k) (hk : k < n) (metric : String)
    (hm : metric = "distance" ∨ metric = "similarity") (nJobs : ℤ) :
    ∃ (N : Fin n → Finset (Fin n)) (M : Fin n → Fin n → K),
      (∀ i, Spec.IsHood (Spec.nearer metric) Finset.univ (Spec.selfLast metric D i) k (N i)) ∧
      sharedNearestNeighbors w (.mat false n n D) k metric nJobs = .ok ⟨n, fun i j => .fin (M i j)⟩ ∧
      (∀ i, M i i = Spec.snnSelf metric) ∧ (∀ i j, i ≠ j → M i j = Spec.snn metric (N i) (N j) k) ∧
      (∀ i j, M i j = M j i) ∧ ∀ i j, ∃ c : ℕ, c ≤ k ∧ M i j = (c : K) / k := by
  have hrow : ∀ i, Np.fillDiagonal D (exclude metric) i = Spec.selfLast metric D i := by
    intro i
    funext j
    unfold Np.fillDiagonal Spec.selfLast exclude
    by_cases hij : i = j
    · rw [if_pos (congrArg Fin.val hij), if_pos hij]
    · rw [if_neg (fun h : i.val = j.val => hij (Fin.ext h)), if_neg hij]
  have hk0 : (k : K) ≠ 0 := Nat.cast_ne_zero.2 (by omega)
  choose L hL hsel using fun i => hood_sel w.part metric hm k h1 hk (Np.fillDiagonal D (exclude metric) i)
  have hcard : ∀ i, (L i).toFinset.card = k := fun i => by
    rw [List.toFinset_card_of_nodup (hsel i).nodup, (hsel i).length]
  refine ⟨fun i => (L i).toFinset,
    fun i j => if i = j then Spec.snnSelf metric else Spec.snn metric (L i).toFinset (L j).toFinset k, ?_, ?_, ?_, ?_, ?_, ?_⟩
  · intro i
    refine ⟨Finset.subset_univ _, hcard i, ?_⟩
    intro a ha b _ hb
    have := (hsel i).best a (List.mem_toFinset.1 ha) b (fun h => hb (List.mem_toFinset.2 h))
    rwa [hrow i] at this
  · rw [call_of_sel w D k metric hm nJobs L hL]
    congr 2
    funext i j
    unfold result
    rw [entry_fin metric hm k h1, selfValue_eq]
    beta_reduce
    split <;> rfl
  · intro i
    beta_reduce
    rw [if_pos rfl]
  · intro i j hij
    beta_reduce
    rw [if_neg hij]
  · intro i j
    beta_reduce
    by_cases hij : i = j
    · rw [hij]
    · rw [if_neg hij, if_neg (Ne.symm hij), snn_symm]
  · intro i j
    beta_reduce
    by_cases hij : i = j
    · rw [if_pos hij]
      unfold Spec.snnSelf
      by_cases hmm : metric = "similarity"
      · exact ⟨k, le_rfl, by rw [if_pos hmm, div_self hk0]⟩
      · exact ⟨0, by omega, by rw [if_neg hmm]; simp⟩
    · rw [if_neg hij]
      have hle : ((L i).toFinset ∩ (L j).toFinset).card ≤ k := by
        rw [← hcard i]; exact Finset.card_le_card Finset.inter_subset_left
      unfold Spec.snn Spec.commonFraction
      by_cases hmm : metric = "similarity"
      · exact ⟨_, hle, by rw [if_pos hmm]⟩
      · refine ⟨k - ((L i).toFinset ∩ (L j).toFinset).card, by omega, ?_⟩
        rw [if_neg hmm, Nat.cast_sub hle, sub_div, div_self hk0]

/-- A matrix with `nan` and infinite distances is covered. -/
example : ∃ M : Fin 3 → Fin 3 → ℚ, sharedNearestNeighbors (revWorld ℚ)
    (.mat false 3 3 ![![.fin 0, .nan, .pinf], ![.fin 1, .fin 0, .fin 2], ![.ninf, .fin 2, .fin 0]]) 1 "distance" 1 =
      .ok ⟨3, fun i j => .fin (M i j)⟩ ∧ ∀ i j, M i j = M j i := by
  obtain ⟨_, M, _, h, _, _, hs, _⟩ := C34_floats (revWorld ℚ)
    ![![.fin 0, .nan, .pinf], ![.fin 1, .fin 0, .fin 2], ![.ninf, .fin 2, .fin 0]] 1 le_rfl (by omega) "distance" (Or.inl rfl) 1
  exact ⟨M, h, hs⟩

end HubToolbox.SNN
