import Verif.MPEmp.Props

/-!
# Sparse empirical Mutual Proximity under renumbering and rescaling
-/

set_option autoImplicit false

namespace HubToolbox.MPEmp

open Spec

variable {K : Type} [Field K] [LinearOrder K]

theorem full_csr (order : Order K) {n : ℕ} (S : Fin n → Fin n → K) (minNnz : ℤ) :
    full order (.csr n n S) "similarity" none minNnz = .ok (.csr n (sparse (order n S) minNnz S)) := by
  simp [full, fullChecks, checkValidMetric]

theorem countTrue_perm {n : ℕ} (σ : Equiv.Perm (Fin n)) (p : Fin n → Bool) : Np.countTrue (fun x => p (σ x)) = Np.countTrue p := by
  have h : ∀ q : Fin n → Bool, Np.countTrue q = (Finset.univ.filter (fun x => q x = true)).card := Np.countTrue_eq_card
  rw [h, h]
  exact Finset.card_bij (fun x _ => σ x) (fun x hx => by simpa using hx) (fun _ _ _ _ e => σ.injective e)
    (fun y hy => ⟨σ.symm y, by simpa using hy, by simp⟩)

/-- **C266 (numbering).** Renumbering the objects renumbers the result, whatever the signs of the similarities and the schedules of the workers. -/
theorem C266_renumber [IsStrictOrderedRing K] (order order' : Order K) {n : ℕ} (S : Fin n → Fin n → K) (minNnz : ℤ) (hsym : Symmetric S) (σ : Equiv.Perm (Fin n))
    (ho : (order n S).Perm (pairs S)) (ho' : (order' n (fun i j => S (σ i) (σ j))).Perm (pairs (fun i j => S (σ i) (σ j)))) :
    ∃ R : Fin n → Fin n → XR K, full order (.csr n n S) "similarity" none minNnz = .ok (.csr n R) ∧
      full order' (.csr n n (fun i j => S (σ i) (σ j))) "similarity" none minNnz = .ok (.csr n (fun i j => R (σ i) (σ j))) := by
  refine ⟨_, full_csr order S minNnz, ?_⟩
  rw [full_csr]
  have hn : ∀ i, nnz (fun j => S (σ i) (σ j)) = nnz (S (σ i)) := fun i => countTrue_perm σ (fun x => decide (S (σ i) x ≠ 0))
  have hs : ∀ i j, secDist minNnz (fun i j => S (σ i) (σ j)) i j = secDist minNnz S (σ i) (σ j) := by
    intro i j
    unfold secDist
    rw [hn, hn]
    have := countTrue_perm σ (fun x => decide (suppress (S (σ i) (σ j)) (S (σ i)) x + suppress (S (σ i) (σ j)) (S (σ j)) x ≠ 0))
    unfold nnz at *
    rw [← this]
    rfl
  congr 2
  funext i j
  rw [sparse_apply minNnz S ho hsym, sparse_apply minNnz _ ho' (fun a b => hsym (σ a) (σ b)), hs, hn]
  simp only [σ.injective.eq_iff]

/-- **C266 (rescaling).** For non-negative similarities a strictly increasing map which keeps zero changes only the rows which are kept because of
`min_nnz`; these are mapped. -/
theorem C266_monotone_partial [IsStrictOrderedRing K] (order order' : Order K) {n : ℕ} (S : Fin n → Fin n → K) (minNnz : ℤ) (hsym : Symmetric S)
    (hnn : ∀ i j, 0 ≤ S i j) (f : K → K) (hf : StrictMonoOn f (Set.Ici 0)) (hf0 : f 0 = 0) (ho : (order n S).Perm (pairs S))
    (ho' : (order' n (fun i j => f (S i j))).Perm (pairs (fun i j => f (S i j)))) :
    ∃ R R' : Fin n → Fin n → XR K, full order (.csr n n S) "similarity" none minNnz = .ok (.csr n R) ∧
      full order' (.csr n n (fun i j => f (S i j))) "similarity" none minNnz = .ok (.csr n R') ∧
      ∀ i j, R' i j = if i ≠ j ∧ ((Finset.univ.filter (fun x => S i x ≠ 0)).card : ℤ) ≤ minNnz then .fin (f (S i j)) else R i j := by
  refine ⟨_, _, full_csr order S minNnz, full_csr order' _ minNnz, fun i j => ?_⟩
  have hle : ∀ a b c d, f (S a b) ≤ f (S c d) ↔ S a b ≤ S c d := fun a b c d => hf.le_iff_le (hnn a b) (hnn c d)
  have hz : ∀ a b, f (S a b) = 0 ↔ S a b = 0 := by
    intro a b
    have := hf.injOn.eq_iff (hnn a b) (Set.mem_Ici.2 (le_refl (0 : K)))
    rwa [hf0] at this
  have hfnn : ∀ a b, 0 ≤ f (S a b) := by
    intro a b
    rw [← hf0]
    exact (hf.le_iff_le (Set.mem_Ici.2 le_rfl) (hnn a b)).2 (hnn a b)
  have hn : ∀ a, nnz (fun b => f (S a b)) = nnz (S a) := by
    intro a
    unfold nnz
    simp only [ne_eq, hz]
  have hcard : ∀ a, nnz (S a) = (Finset.univ.filter (fun x => S a x ≠ 0)).card := by
    intro a
    unfold nnz
    rw [Np.countTrue_eq_card]
    simp
  rw [sparse_apply minNnz S ho hsym, sparse_apply minNnz _ ho' (fun a b => congrArg f (hsym a b)), hn, ← hcard]
  by_cases hij : i = j
  · simp [hij]
  · simp only [hij, if_false, ne_eq, not_false_eq_true, true_and, hz]
    by_cases hi : (nnz (S i) : ℤ) ≤ minNnz
    · simp [hi]
    · simp only [hi, if_false]
      by_cases hj : (nnz (S j) : ℤ) ≤ minNnz
      · unfold secDist
        rw [hn, hn]
        simp [hj]
      · rw [secDist_eq hnn (not_le.1 hi) (not_le.1 hj),
          secDist_eq (S := fun i j => f (S i j)) hfnn (by rw [hn]; exact not_le.1 hi) (by rw [hn]; exact not_le.1 hj)]
        simp only [hle]

/-- Similarities with negative values. -/
def exNeg : Fin 3 → Fin 3 → ℚ := ![![1, -1, 1/2], ![-1, 1, -1/2], ![1/2, -1/2, 1]]

/-- A strictly increasing map which keeps zero. -/
def halfNeg (x : ℚ) : ℚ := if x < 0 then x / 2 else x

/-- **C266 is violated for negative similarities**: the sum of two rows may cancel, so that positions which are more similar are not counted. The
strictly increasing map `halfNeg` changes the result, although no similarity is near another one. -/
theorem C266_violated : Symmetric exNeg ∧ StrictMono halfNeg ∧ halfNeg 0 = 0 ∧ ∀ order order' : Order ℚ, (order 3 exNeg).Perm (pairs exNeg) →
    (order' 3 (fun i j => halfNeg (exNeg i j))).Perm (pairs (fun i j => halfNeg (exNeg i j))) →
    ∃ R R' : Fin 3 → Fin 3 → XR ℚ, full order (.csr 3 3 exNeg) "similarity" none 0 = .ok (.csr 3 R) ∧
      full order' (.csr 3 3 (fun i j => halfNeg (exNeg i j))) "similarity" none 0 = .ok (.csr 3 R') ∧
      R 0 1 = .fin (1/3) ∧ R' 0 1 = .fin 0 := by
  have hsym : Symmetric exNeg := by unfold Spec.Symmetric; decide +kernel
  refine ⟨hsym, ?_, by decide +kernel, fun order order' ho ho' => ?_⟩
  · intro a b hab
    unfold halfNeg
    split_ifs <;> linarith
  · refine ⟨_, _, full_csr order _ 0, full_csr order' _ 0, ?_, ?_⟩
    · rw [sparse_apply 0 _ ho hsym]
      decide +kernel
    · rw [sparse_apply 0 _ ho' (fun a b => congrArg halfNeg (hsym a b))]
      decide +kernel

/-! ### Non-vacuity -/

/-- Non-negative similarities with a missing one. -/
def exPos : Fin 3 → Fin 3 → ℚ := ![![1, 1/2, 0], ![1/2, 1, 1/4], ![0, 1/4, 1]]

example : Symmetric exPos ∧ (∀ i j, 0 ≤ exPos i j) ∧ StrictMonoOn (fun x : ℚ => x ^ 2) (Set.Ici 0) ∧ (fun x : ℚ => x ^ 2) 0 = 0 := by
  refine ⟨by unfold Spec.Symmetric; decide +kernel, by decide +kernel, fun a ha b _ hab => ?_, by norm_num⟩
  exact pow_lt_pow_left₀ hab ha two_ne_zero

end HubToolbox.MPEmp
