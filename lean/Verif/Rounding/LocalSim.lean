import Verif.Rounding.LocalError

/-!
# Local Scaling of similarities in double precision
-/

set_option autoImplicit false

namespace HubToolbox.Rounding

open HubToolbox.Ieee (double)

theorem lsEntry_sim_error (L : Lib) (hexp : L.ExpNear) {d ri rj : ℝ} (hd : Within (-200) 200 d)
    (hi : 2 ^ (-200 : ℤ) ≤ ri) (hi' : ri ≤ 2 ^ (200 : ℤ)) (hj : 2 ^ (-200 : ℤ) ≤ rj) (hj' : rj ≤ 2 ^ (200 : ℤ)) :
    ∃ v, (double.rounding ℝ).lsEntry L "similarity" (.fin d) (.fin ri) (.fin rj) = .fin v ∧ double.round v = .fin v ∧
      0 ≤ v ∧ v ≤ 1 ∧ |v - Real.exp (-(d ^ 2 / (ri * rj)))| ≤ 2 ^ (-50 : ℤ) := by
  have hu := u_pos
  have hu8 : u ≤ 1 / 64 := by
    have := du_le (d := 0) (by norm_num)
    simpa using this
  have pi : 0 < ri := (zpow_pos two_pos _).trans_le hi
  have pj : 0 < rj := (zpow_pos two_pos _).trans_le hj
  obtain ⟨s, hs, hs0, hst⟩ := lsArg_error hd hi hi' hj hj'
  clear hd hi hi' hj hj'
  set t := d ^ 2 / (ri * rj) with ht
  have ht0 : 0 ≤ t := by positivity
  have hes := exp_rel ht0 (by linarith) (by linarith) hst
  obtain ⟨y, hy, hyf, hyr, hye⟩ := hexp s hs0
  refine ⟨y, ?_, hyf, hyr.1, hyr.2, ?_⟩
  · unfold lsEntry
    simp only [if_true]
    rw [hs, hy]
  · have e2 : (2 : ℝ) ^ (-52 : ℤ) = 2 * u := by rw [u_eq, ← zpow_one_add₀ two_ne_zero]; norm_num
    have e8 : (2 : ℝ) ^ (-50 : ℤ) = 8 * u := by
      rw [u_eq, show (8 : ℝ) = 2 ^ (3 : ℤ) by norm_num, ← zpow_add₀ two_ne_zero]; norm_num
    rw [e2] at hye
    rw [e8]
    rw [abs_le] at hye hes ⊢
    constructor <;> linarith [hye.1, hye.2, hes.1, hes.2]

/-- **C253.** In float64, Local Scaling of symmetric similarities which are zero or of absolute value between `2 ^ -200` and
`2 ^ 200`, with positive radii, returns a symmetric matrix of numbers from zero to one with ones on the diagonal, which differ
from the exact values by at most `2 ^ -50`. -/
theorem C253 (L : Lib) (hexp : L.ExpNear) (w : LS.World) {n : ℕ} (x : Fin n → Fin n → ℝ)
    (hsym : ∀ i j, x i j = x j i) (hx : ∀ i j, i ≠ j → Within (-200) 200 (x i j)) (k : ℕ) (hk : 1 ≤ k) (hkn : k < n)
    (nJobs : ℤ) (hj : nJobs = -1 ∨ 1 ≤ nJobs) (r : Fin n → ℝ)
    (hr : ∀ i, Spec.IsKthLargest (Finset.univ.erase i) (x i) k (r i)) (hpos : ∀ i, 0 < r i) :
    ∃ M : Fin n → Fin n → ℝ,
      (double.rounding ℝ).localScaling L w (.mat false n n (LS.toXR x)) k "similarity" none nJobs = .ok ⟨n, LS.toXR M⟩ ∧
      (∀ i, M i i = 1) ∧ (∀ i j, M i j = M j i) ∧ (∀ i j, 0 ≤ M i j ∧ M i j ≤ 1) ∧
      ∀ i j, i ≠ j → |M i j - Real.exp (-(x i j ^ 2 / (r i * r j)))| ≤ 2 ^ (-50 : ℤ) := by
  have hlen : (LS.trainInd n none).length = n := by simp [LS.trainInd]
  have hrange : ∀ i, 2 ^ (-200 : ℤ) ≤ r i ∧ r i ≤ 2 ^ (200 : ℤ) := by
    intro i
    obtain ⟨j, hjm, hji⟩ := (hr i).attained
    have hji : x i j = r i := by simpa using hji
    have hne : i ≠ j := (Finset.ne_of_mem_erase hjm).symm
    have hp := hpos i
    rcases hx i j hne with h | h
    · rw [hji] at h; exact absurd h hp.ne'
    · rwa [hji, abs_of_pos hp] at h
  have hent : ∀ i j, i ≠ j → ∃ v, (double.rounding ℝ).lsEntry L "similarity" (.fin (x i j)) (.fin (r i)) (.fin (r j)) = .fin v ∧
      double.round v = .fin v ∧ 0 ≤ v ∧ v ≤ 1 ∧ |v - Real.exp (-(x i j ^ 2 / (r i * r j)))| ≤ 2 ^ (-50 : ℤ) := fun i j hij =>
    lsEntry_sim_error L hexp (hx i j hij) (hrange i).1 (hrange i).2 (hrange j).1 (hrange j).2
  choose! V hV hVf hV0 hV1 hVe using hent
  refine ⟨fun i j => if i = j then 1 else if i < j then V i j else V j i, ?_, ?_, ?_, ?_, ?_⟩
  · rw [localScaling_dense L w _ _ _ (Or.inr rfl), lsCore_ok L w _ _ _ _ _ (LS.jobs_pos w nJobs hj) ⟨n - k, by omega⟩]
    · change Except.ok _ = Except.ok _
      congr 2
      funext i j
      have hrad : ∀ i, LS.rankVal (LS.cols (Np.fillDiagonal (LS.toXR x) (LS.exclude "similarity")) (LS.trainInd n none) i)
          ⟨n - k, by omega⟩ = .fin (r i) := by
        intro i
        obtain ⟨ρ, h1, h2⟩ := LS.rankVal_kthLargest x i k hk hkn ⟨n - k, by omega⟩ rfl
        have := LS.kthSmallest_unique (hr i) h2
        rw [neg_inj] at this
        rw [this]
        exact h1
      unfold lsResult LS.toXR LS.mirror
      simp only
      by_cases h : i = j
      · simp [h, LS.selfValue]
      · rw [if_neg h, if_neg h]
        by_cases h' : i < j
        · rw [if_pos h', if_pos h', ← hVf i j h]
          unfold LS.toXR at hrad
          simp only [hrad]
          rw [hV i j h]
          rfl
        · rw [if_neg h', if_neg h', ← hVf j i (Ne.symm h)]
          unfold LS.toXR at hrad
          simp only [hrad]
          rw [hV j i (Ne.symm h)]
          rfl
    · unfold LS.kthOf
      rw [if_pos rfl]
      have : Np.wrap (LS.trainInd n none).length ((n : ℤ) - k) = some ⟨n - k, by omega⟩ := by
        rw [Np.wrap_of_nonneg (by omega) (by omega)]
        congr 1
        apply Fin.ext
        simp
      exact this
  · intro i
    simp
  · intro i j
    beta_reduce
    rcases lt_trichotomy i j with h | h | h
    · rw [if_neg h.ne, if_pos h, if_neg h.ne', if_neg h.asymm]
    · rw [h]
    · rw [if_neg h.ne', if_neg h.asymm, if_neg h.ne, if_pos h]
  · intro i j
    beta_reduce
    by_cases h : i = j
    · rw [if_pos h]; norm_num
    · rw [if_neg h]
      by_cases h' : i < j
      · rw [if_pos h']; exact ⟨hV0 i j h, hV1 i j h⟩
      · rw [if_neg h']; exact ⟨hV0 j i (Ne.symm h), hV1 j i (Ne.symm h)⟩
  · intro i j hij
    beta_reduce
    rw [if_neg hij]
    by_cases h' : i < j
    · rw [if_pos h']
      exact hVe i j hij
    · rw [if_neg h']
      have := hVe j i (Ne.symm hij)
      rwa [hsym j i, mul_comm (r j)] at this

/-- The hypotheses hold for four objects. -/
example (nJobs : ℤ) (hj : nJobs = -1 ∨ 1 ≤ nJobs) := C253 Lib.rounded Lib.rounded_expNear LS.stdWorld LS.sim4
  LS.sim4_symm (fun i j hij => by
    have h0 : (2 : ℝ) ^ (-200 : ℤ) ≤ 1 := zpow_le_one_of_nonpos₀ one_le_two (by norm_num)
    have h4 : (4 : ℝ) ≤ 2 ^ (200 : ℤ) := by
      have : (2 : ℝ) ^ (2 : ℤ) ≤ 2 ^ (200 : ℤ) := zpow_le_zpow_right₀ one_le_two (by norm_num)
      exact le_trans (by norm_num) this
    by_cases h : LS.sim4 i j = 0
    · exact Or.inl h
    · right
      have hl : 1 ≤ LS.sim4 i j ∧ LS.sim4 i j ≤ 4 := by
        fin_cases i <;> fin_cases j <;> first | exact absurd rfl hij | exact absurd rfl h | norm_num [LS.sim4]
      rw [abs_of_nonneg (by linarith [hl.1])]
      exact ⟨h0.trans hl.1, hl.2.trans h4⟩)
  1 le_rfl (by norm_num) nJobs hj _ LS.sim4_radii (by intro i; fin_cases i <;> norm_num)

end HubToolbox.Rounding
