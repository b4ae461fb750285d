import Verif.LS.Props

/-!
# C69: the neighbourhood sizes which are accepted

Exactly which `k` raise an error, for all of them.
-/

set_option autoImplicit false

namespace HubToolbox.LS

theorem wrap_isSome (m : ℕ) (t : ℤ) : (∃ a, Np.wrap m t = some a) ↔ -(m : ℤ) ≤ t ∧ t < m := by
  unfold Np.wrap
  split_ifs with h1 h2
  · exact ⟨fun _ => by omega, fun _ => ⟨_, rfl⟩⟩
  · exact ⟨fun _ => by omega, fun _ => ⟨_, rfl⟩⟩
  · exact ⟨by rintro ⟨a, h⟩; exact absurd h (by simp), fun h => by omega⟩

/-- **C69**, exactly: with `T` training points `local_scaling` accepts the sizes `-T < k ≤ T` for distances and `n - T < k ≤ n + T` for
similarities, and all other sizes raise an error. (It should accept `1 ≤ k < T` only, or `k = T` for points which are not training points.) -/
theorem C69_exact (w : World) {n : ℕ} (hn : 0 < n) (D : Fin n → Fin n → XR ℝ) (k : ℤ) (metric : String)
    (hm : metric = "distance" ∨ metric = "similarity") (test : Option (List ℤ)) (nJobs : ℤ) (hj : 1 ≤ jobs w nJobs) :
    ((∃ M, localScaling w (.mat false n n D) k metric test nJobs = .ok ⟨n, M⟩) ↔
      (metric = "distance" → -((Spec.training n test).card : ℤ) < k ∧ k ≤ (Spec.training n test).card) ∧
      (metric = "similarity" → (n : ℤ) - (Spec.training n test).card < k ∧ k ≤ n + (Spec.training n test).card)) ∧
    ((∃ M, localScaling w (.mat false n n D) k metric test nJobs = .ok ⟨n, M⟩) ∨
      localScaling w (.mat false n n D) k metric test nJobs = .error .valueError) := by
  have hran : (∃ a, Np.wrap (trainInd n test).length (kthOf metric n k) = some a) ↔
      (metric = "distance" → -((Spec.training n test).card : ℤ) < k ∧ k ≤ (Spec.training n test).card) ∧
      (metric = "similarity" → (n : ℤ) - (Spec.training n test).card < k ∧ k ≤ n + (Spec.training n test).card) := by
    rw [wrap_isSome, trainInd_length]
    unfold kthOf
    rcases hm with rfl | rfl
    · rw [if_neg (by decide)]
      simp only [forall_const, show ("distance" : String) ≠ "similarity" by decide, false_imp_iff, and_true]
      omega
    · rw [if_pos rfl]
      simp only [forall_const, show ("similarity" : String) ≠ "distance" by decide, false_imp_iff, true_and]
      omega
  rw [← hran, localScaling_dense w _ _ _ hm]
  rcases h : Np.wrap (trainInd n test).length (kthOf metric n k) with _ | t
  · rw [core_error w hn _ _ _ _ _ h]
    refine ⟨⟨?_, ?_⟩, Or.inr rfl⟩
    · rintro ⟨M, hM⟩
      cases hM
    · rintro ⟨a, ha⟩
      cases ha
  · rw [core_ok w _ _ _ _ _ hj t h]
    exact ⟨⟨fun _ => ⟨t, rfl⟩, fun _ => ⟨_, rfl⟩⟩, Or.inl ⟨_, rfl⟩⟩

/-- **C69**, exactly: `nicdm` accepts the sizes `0 ≤ k ≤ T`. -/
theorem C69_nicdm_exact (w : World) {n : ℕ} (hn : 0 < n) (D : Fin n → Fin n → XR ℝ) (k : ℕ) (test : Option (List ℤ)) (nJobs : ℤ) :
    ((∃ M, nicdm w (.mat false n n D) k "distance" test nJobs = .ok ⟨n, M⟩) ↔ k ≤ (Spec.training n test).card) ∧
    ((∃ M, nicdm w (.mat false n n D) k "distance" test nJobs = .ok ⟨n, M⟩) ∨
      nicdm w (.mat false n n D) k "distance" test nJobs = .error .valueError) := by
  rw [← trainInd_length, nicdm_dense]
  by_cases h : k ≤ (trainInd n test).length
  · rw [nicdmCore_ok w _ _ _ _ h]
    exact ⟨⟨fun _ => h, fun _ => ⟨_, rfl⟩⟩, Or.inl ⟨_, rfl⟩⟩
  · rw [nicdmCore_error w hn _ _ _ _ (by omega)]
    refine ⟨⟨?_, fun h' => absurd h' h⟩, Or.inr rfl⟩
    rintro ⟨M, hM⟩
    cases hM

/-- Five points, none held out: for distances `-4, …, 5` are accepted, for similarities `1, …, 10`. -/
example : (Spec.training 5 none).card = 5 := by decide

end HubToolbox.LS
