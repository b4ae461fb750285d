import Verif.SNN.Props

/-!
# C73: the neighbourhood sizes which are accepted

Exactly which `k` raise an error in `shared_nearest_neighbors`, and what values the others give.
-/

set_option autoImplicit false

namespace HubToolbox.SNN

variable {K : Type} [Field K] [LinearOrder K] [IsStrictOrderedRing K]

/-- **C73**, exactly: `shared_nearest_neighbors` accepts `-n ≤ k < n` for distances and `1 ≤ k ≤ 2n` for similarities, and all other
sizes raise an error. (It should accept `1 ≤ k < n` only.) -/
theorem C73_exact (w : World K) {n : ℕ} (hn : 1 ≤ n) (D : Fin n → Fin n → XR K) (k : ℤ) (metric : String)
    (hm : metric = "distance" ∨ metric = "similarity") (nJobs : ℤ) :
    ((∃ M, sharedNearestNeighbors w (.mat false n n D) k metric nJobs = .ok ⟨n, M⟩) ↔
      (metric = "distance" → -(n : ℤ) ≤ k ∧ k < n) ∧ (metric = "similarity" → 1 ≤ k ∧ k ≤ 2 * n)) ∧
    ((∃ M, sharedNearestNeighbors w (.mat false n n D) k metric nJobs = .ok ⟨n, M⟩) ∨
      sharedNearestNeighbors w (.mat false n n D) k metric nJobs = .error .valueError) := by
  have hran : (-(n : ℤ) ≤ kthOf metric n k ∧ kthOf metric n k < n) ↔
      (metric = "distance" → -(n : ℤ) ≤ k ∧ k < n) ∧ (metric = "similarity" → 1 ≤ k ∧ k ≤ 2 * n) := by
    unfold kthOf
    rcases hm with rfl | rfl
    · rw [if_neg (by decide)]
      simp only [forall_const, show ("distance" : String) ≠ "similarity" by decide, false_imp_iff, and_true]
    · rw [if_pos rfl]
      simp only [forall_const, show ("similarity" : String) ≠ "distance" by decide, false_imp_iff, true_and]
      omega
  rw [← hran]
  by_cases h : -(n : ℤ) ≤ kthOf metric n k ∧ kthOf metric n k < n
  · have hs : ∃ a, Np.wrap n (kthOf metric n k) = some a := by
      unfold Np.wrap
      split_ifs with h1 h2
      · exact ⟨_, rfl⟩
      · exact ⟨_, rfl⟩
      · omega
    obtain ⟨a, ha⟩ := hs
    have hh : ∀ d : Fin n → XR K, hood w.part metric (kthOf metric n k) k d =
        .ok (top metric (List.ofFn (w.part.run d (fun _ : Fin 1 => a))) k) := by
      intro d
      unfold hood Np.argpartition
      rw [Np.wrapAll_const, ha]
      rfl
    have := call_of_sel w D k metric hm nJobs _ (fun i => hh _)
    exact ⟨⟨fun _ => h, fun _ => ⟨_, this⟩⟩, Or.inl ⟨_, this⟩⟩
  · have hw : Np.wrap n (kthOf metric n k) = none := by
      unfold Np.wrap
      rw [dif_neg (by omega), dif_neg (by omega)]
    have hh : ∀ d : Fin n → XR K, hood w.part metric (kthOf metric n k) k d = .error .valueError := by
      intro d
      unfold hood Np.argpartition
      rw [Np.wrapAll_const, hw]
      rfl
    have he : sharedNearestNeighbors w (.mat false n n D) k metric nJobs = .error .valueError := by
      rw [call_eq w D k metric hm]
      simp only [hh]
      rw [Np.tabulateM_error (by omega)]
      rfl
    refine ⟨⟨?_, fun h' => absurd h' h⟩, Or.inr he⟩
    rintro ⟨M, hM⟩
    rw [he] at hM
    cases hM

/-- The four points on a line: `-4, …, 3` are accepted for distances, `1, …, 8` for similarities. -/
example : (∃ M, sharedNearestNeighbors (revWorld ℚ) (.mat false 4 4 (fun i j => .fin (line4 i j))) (-3) "distance" 1 = .ok ⟨4, M⟩) ∧
    sharedNearestNeighbors (revWorld ℚ) (.mat false 4 4 (fun i j => .fin (line4 i j))) 9 "similarity" 1 = .error .valueError := by
  constructor
  · exact (C73_exact _ (by omega) _ _ _ (Or.inl rfl) 1).1.2 ⟨fun _ => by omega, fun h => absurd h (by decide)⟩
  · rcases (C73_exact (revWorld ℚ) (n := 4) (by omega) (fun i j => .fin (line4 i j)) 9 "similarity" (Or.inr rfl) 1).2 with h | h
    · have := ((C73_exact (revWorld ℚ) (n := 4) (by omega) (fun i j => .fin (line4 i j)) 9 "similarity" (Or.inr rfl) 1).1.1 h).2 rfl
      omega
    · exact h

end HubToolbox.SNN
