import Verif.LS.Props
import Verif.MPPar.Props
import Verif.Hubness.Props

/-!
# Hubness of scaled distances (C168)

`hubness` looks at the order of each row only. When all objects have equal neighbourhoods, scaling keeps that order, so
that it does not change hubness.
-/

set_option autoImplicit false

namespace HubToolbox.Relations

open HubToolbox

/-- **C168** (rows): `hubness` of two tie-free matrices with equally ordered rows is equal, whatever stands on the diagonal. -/
theorem C168_row_order (o o' : ArgPart (XR ℝ)) (rnd rnd' : Hubness.Rnd) (sched sched' : Hubness.Schedule) {n : ℕ}
    (sparse sparse' : Bool) (x y : Fin n → Fin n → ℝ) (k : ℤ) (metric : String) (nJobs nJobs' : ℤ)
    (seed seed' shuffle shuffle' : Bool) (hties : ∀ i a b, a ≠ i → b ≠ i → x i a = x i b → a = b)
    (hord : ∀ i a b, a ≠ i → b ≠ i → (x i a < x i b ↔ y i a < y i b)) (r r' : Hubness.Res n)
    (h : Hubness.hubnessMat o rnd sched sparse (LS.toXR x) k metric nJobs seed shuffle = .ok r)
    (h' : Hubness.hubnessMat o' rnd' sched' sparse' (LS.toXR y) k metric nJobs' seed' shuffle' = .ok r') : r = r' := by
  have hc : ∀ j, Hubness.Covered j metric n n := fun j => by simp [Hubness.Covered]
  obtain ⟨hm, -, L, rfl, hL⟩ := Hubness.hubnessMat_inv o rnd sched (hc _) h
  obtain ⟨-, -, L', rfl, hL'⟩ := Hubness.hubnessMat_inv o' rnd' sched' (hc _) h'
  have heff : ∀ (z : Fin n → Fin n → ℝ) i j, Spec.effective metric (LS.toXR z) i j =
      if i = j then Spec.far metric else .fin (z i j) := by
    intro z i j
    unfold Spec.effective LS.toXR
    by_cases hij : i = j
    · simp [hij]
    · simp [hij, Fin.val_inj, XR.isFinite]
  congr 1
  have : L = L' := by
    apply Hubness.rows_determined
    intro i
    apply (hL i).unique ((hL' i).congr (cl' := Spec.closer metric) (d' := Spec.effective metric (LS.toXR x) i) ?_)
    · intro a b h1 h2
      have := Spec.closer_anti h1 h2
      rw [heff, heff] at this
      by_cases ha : i = a <;> by_cases hb : i = b
      · rw [← ha, ← hb]
      · rw [if_pos ha, if_neg hb] at this; unfold Spec.far at this; split at this <;> cases this
      · rw [if_neg ha, if_pos hb] at this; unfold Spec.far at this; split at this <;> cases this
      · rw [if_neg ha, if_neg hb] at this
        exact hties i a b (Ne.symm ha) (Ne.symm hb) (XR.fin.inj this)
    · intro a b
      rw [heff, heff, heff, heff]
      unfold Spec.closer Spec.far
      by_cases ha : i = a <;> by_cases hb : i = b <;> split <;> simp [ha, hb]
      all_goals
        rw [← not_lt, ← not_lt]
        intro h1 h2
        exact h1 ((hord i _ _ (Ne.symm ‹_›) (Ne.symm ‹_›)).1 h2)
  rw [this]

/-- The transformation of Local Scaling for a common neighbourhood radius. -/
theorem localScaling_lt {ρ : ℝ} (hρ : 0 < ρ) {d d' : ℝ} (hd : 0 ≤ d) (hd' : 0 ≤ d') :
    d < d' ↔ Spec.localScaling d ρ ρ < Spec.localScaling d' ρ ρ := by
  unfold Spec.localScaling
  have hp : 0 < ρ * ρ := mul_pos hρ hρ
  rw [sub_lt_sub_iff_left, Real.exp_lt_exp, neg_lt_neg_iff, div_lt_div_iff_of_pos_right hp]
  exact (sq_lt_sq₀ hd hd').symm

/-- **C168** (Local Scaling): if all objects have the same `k`-th nearest neighbour distance, Local Scaling leaves hubness
unchanged. -/
theorem C168_local_scaling (w : LS.World) {n : ℕ} (hn : 0 < n) (x : Fin n → Fin n → ℝ) (hsym : ∀ i j, x i j = x j i)
    (hnn : ∀ i j, 0 ≤ x i j) (hties : ∀ i a b, a ≠ i → b ≠ i → x i a = x i b → a = b) (k : ℕ) (hk : 1 ≤ k)
    (test : Option (List ℤ)) (jobs : ℤ) (hj : jobs = -1 ∨ 1 ≤ jobs) (ρ : ℝ) (hρ : 0 < ρ)
    (hr : ∀ i, Spec.IsKthSmallest ((Spec.training n test).erase i) (x i) k ρ) :
    ∃ M : Fin n → Fin n → ℝ, LS.localScaling w (.mat false n n (LS.toXR x)) k "distance" test jobs = .ok ⟨n, LS.toXR M⟩ ∧
      ∀ (o o' : ArgPart (XR ℝ)) (rnd rnd' : Hubness.Rnd) (sched sched' : Hubness.Schedule) (sparse sparse' : Bool) (κ : ℤ)
        (nJobs nJobs' : ℤ) (seed seed' shuffle shuffle' : Bool) (r r' : Hubness.Res n),
        Hubness.hubnessMat o rnd sched sparse (LS.toXR x) κ "distance" nJobs seed shuffle = .ok r →
        Hubness.hubnessMat o' rnd' sched' sparse' (LS.toXR M) κ "distance" nJobs' seed' shuffle' = .ok r' → r = r' := by
  refine ⟨_, LS.C28_formula w x hsym k hk test jobs hj (fun _ => ρ) hr (fun _ => hρ) hn, ?_⟩
  intro o o' rnd rnd' sched sched' sparse sparse' κ nJobs nJobs' seed seed' shuffle shuffle' r r' h h'
  refine C168_row_order o o' rnd rnd' sched sched' sparse sparse' x _ κ "distance" nJobs nJobs' seed seed' shuffle shuffle' hties
    ?_ r r' h h'
  intro i a b ha hb
  rw [if_neg (Ne.symm ha), if_neg (Ne.symm hb)]
  exact localScaling_lt hρ (hnn _ _) (hnn _ _)

/-- **C168** (NICDM): if all objects have the same mean distance to their `k` nearest neighbours, NICDM leaves hubness
unchanged. -/
theorem C168_nicdm (w : LS.World) {n : ℕ} (hn : 0 < n) (x : Fin n → Fin n → ℝ) (hsym : ∀ i j, x i j = x j i)
    (hdiag : ∀ i, x i i = 0) (hties : ∀ i a b, a ≠ i → b ≠ i → x i a = x i b → a = b) (k : ℕ) (hk : 1 ≤ k)
    (test : Option (List ℤ)) (jobs : ℤ) (N : Fin n → Finset (Fin n))
    (hN : ∀ i, Spec.IsNearest ((Spec.training n test).erase i) (x i) k (N i)) (ρ : ℝ) (hρ : 0 < ρ)
    (heq : ∀ i, Spec.meanOver (N i) (x i) = ρ) :
    ∃ M : Fin n → Fin n → ℝ, LS.nicdm w (.mat false n n (LS.toXR x)) k "distance" test jobs = .ok ⟨n, LS.toXR M⟩ ∧
      ∀ (o o' : ArgPart (XR ℝ)) (rnd rnd' : Hubness.Rnd) (sched sched' : Hubness.Schedule) (sparse sparse' : Bool) (κ : ℤ)
        (nJobs nJobs' : ℤ) (seed seed' shuffle shuffle' : Bool) (r r' : Hubness.Res n),
        Hubness.hubnessMat o rnd sched sparse (LS.toXR x) κ "distance" nJobs seed shuffle = .ok r →
        Hubness.hubnessMat o' rnd' sched' sparse' (LS.toXR M) κ "distance" nJobs' seed' shuffle' = .ok r' → r = r' := by
  refine ⟨x, LS.C32_uniform w x hsym hdiag k hk test jobs N hN ρ hρ heq hn, ?_⟩
  intro o o' rnd rnd' sched sched' sparse sparse' κ nJobs nJobs' seed seed' shuffle shuffle' r r' h h'
  exact C168_row_order o o' rnd rnd' sched sched' sparse sparse' x x κ "distance" nJobs nJobs' seed seed' shuffle shuffle' hties
    (fun _ _ _ _ _ => Iff.rfl) r r' h h'

/-- **C168** (Mutual Proximity, normal distributions): if the values of all objects have the same mean and standard deviation,
`mutual_proximity_gaussi` leaves hubness unchanged. That the distribution function is strictly increasing is a property of the
normal distribution; in double precision it saturates about eight standard deviations above the mean. -/
theorem C168_gaussi (F : MPPar.Dists) (hF : StrictMono F.phi) {n : ℕ} (D : Fin n → Fin n → ℝ) (hD : ∀ i j, D i j = D j i)
    (hties : ∀ i a b, a ≠ i → b ≠ i → D i a = D i b → a = b) (metric : String) (hm : Spec.IsMetric metric) (mn : ℤ)
    (test : Option (List ℤ)) (hne : ∀ j, ((Spec.training n test).erase j).Nonempty) (μ σ : ℝ)
    (hμ : ∀ i, Spec.meanOver ((Spec.training n test).erase i) (D i) = μ)
    (hσ : ∀ i, Spec.stdDev ((Spec.training n test).erase i) (D i) = σ) :
    ∃ M : Fin n → Fin n → ℝ, MPPar.gaussi F (.mat false n n D) metric 0 mn test none = .ok ⟨n, n, LS.toXR M⟩ ∧
      ∀ (o o' : ArgPart (XR ℝ)) (rnd rnd' : Hubness.Rnd) (sched sched' : Hubness.Schedule) (sparse sparse' : Bool) (κ : ℤ)
        (nJobs nJobs' : ℤ) (seed seed' shuffle shuffle' : Bool) (r r' : Hubness.Res n),
        Hubness.hubnessMat o rnd sched sparse (LS.toXR D) κ metric nJobs seed shuffle = .ok r →
        Hubness.hubnessMat o' rnd' sched' sparse' (LS.toXR M) κ metric nJobs' seed' shuffle' = .ok r' → r = r' := by
  obtain ⟨M, hM, hf⟩ := MPPar.C26_formula F D hD metric hm mn test hne
  refine ⟨M, hM, ?_⟩
  intro o o' rnd rnd' sched sched' sparse sparse' κ nJobs nJobs' seed seed' shuffle shuffle' r r' h h'
  refine C168_row_order o o' rnd rnd' sched sched' sparse sparse' D M κ metric nJobs nJobs' seed seed' shuffle shuffle' hties ?_
    r r' h h'
  intro i a b ha hb
  rw [hf i a (Ne.symm ha), hf i b (Ne.symm hb)]
  unfold Spec.normalProb
  simp only [hμ, hσ]
  have hg : 0 < Spec.guard σ := by
    unfold Spec.guard
    split_ifs with h0
    · positivity
    · refine lt_of_le_of_ne ?_ (Ne.symm h0)
      rw [← hσ i]
      exact Real.sqrt_nonneg _
  have hz : D i a < D i b ↔ F.phi ((D i a - μ) / Spec.guard σ) < F.phi ((D i b - μ) / Spec.guard σ) := by
    rw [hF.lt_iff_lt, div_lt_div_iff_of_pos_right hg, sub_lt_sub_iff_right]
  rw [hz]
  have h0 := F.phi_nonneg
  have h1 := F.phi_le_one
  generalize (D i a - μ) / Spec.guard σ = s
  generalize (D i b - μ) / Spec.guard σ = t
  unfold Spec.mutualProximity
  split
  · rw [← sq, ← sq]; exact (sq_lt_sq₀ (h0 _) (h0 _)).symm
  · rw [sub_lt_sub_iff_left, ← sq, ← sq, sq_lt_sq₀ (sub_nonneg.2 (h1 _)) (sub_nonneg.2 (h1 _)), sub_lt_sub_iff_left]

/-! ### The hypotheses can be met -/

/-- Four objects, each with the distances 1, 2 and 4 to the others. -/
def square : Fin 4 → Fin 4 → ℝ := ![![0, 1, 2, 4], ![1, 0, 4, 2], ![2, 4, 0, 1], ![4, 2, 1, 0]]

theorem square_tieFree : ∀ i a b, a ≠ i → b ≠ i → square i a = square i b → a = b := by
  intro i a b; fin_cases i <;> fin_cases a <;> fin_cases b <;> simp [square]

example : (∀ i j, square i j = square j i) ∧ (∀ i j, 0 ≤ square i j) ∧ ∀ i, square i i = 0 := by
  refine ⟨?_, ?_, ?_⟩
  · intro i j; fin_cases i <;> fin_cases j <;> simp [square]
  · intro i j; fin_cases i <;> fin_cases j <;> simp [square]
  · intro i; fin_cases i <;> simp [square]

theorem square_training (i : Fin 4) : (Spec.training 4 none).erase i = Finset.univ.erase i := by simp [Spec.training]

-- the second nearest is at distance 2
example : ∀ i, Spec.IsKthSmallest ((Spec.training 4 none).erase i) (square i) 2 2 := by
  intro i
  rw [square_training]
  have e1 : (Finset.univ.erase i).filter (fun j => square i j < 2) = {![1, 0, 3, 2] i} := by
    ext j; fin_cases i <;> fin_cases j <;> simp [square] <;> norm_num
  have e2 : (Finset.univ.erase i).filter (fun j => square i j ≤ 2) = {![1, 0, 3, 2] i, ![2, 3, 0, 1] i} := by
    ext j; fin_cases i <;> fin_cases j <;> simp [square] <;> norm_num
  refine ⟨⟨![2, 3, 0, 1] i, ?_, ?_⟩, by rw [e1]; simp, ?_⟩
  · fin_cases i <;> decide
  · fin_cases i <;> simp [square]
  · rw [e2]; fin_cases i <;> decide

example : ∀ i, Spec.meanOver ((Spec.training 4 none).erase i) (square i) = 7 / 3 := by
  intro i
  rw [square_training]
  unfold Spec.meanOver
  rw [Finset.card_erase_of_mem (Finset.mem_univ _), Finset.sum_erase_eq_sub (Finset.mem_univ _), Fin.sum_univ_four]
  fin_cases i <;> simp [square] <;> norm_num

end HubToolbox.Relations
