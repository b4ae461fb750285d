import Verif.Approx.LocalHnsw
import Verif.Approx.LocalSample

/-!
# C128 with sampling, C212 with an index: which numbers enter Gaussian Mutual Proximity
-/

set_option autoImplicit false

namespace HubToolbox.Approx

open HubToolbox

/-- One secondary distance with given moments of the training objects. -/
theorem mpgRow_eq (F : MPPar.Dists) {s : ℕ} (d : Fin s → ℝ) (mom : Fin s → XR ℝ × XR ℝ) (j : Fin s) (m v : ℝ)
    (h1 : 0 < Spec.stdDev Finset.univ d) (hm : mom j = (.fin m, .fin v)) (h2 : 0 < v) :
    mpgRow F d mom j = .fin (Spec.mutualProximity "distance"
      (F.phi ((d j - Spec.meanOver Finset.univ d) / Spec.stdDev Finset.univ d)) (F.phi ((d j - m) / v))) := by
  unfold mpgRow
  rw [list_nanmean j.pos, list_sd j.pos, hm]
  have := MPPar.gaussEntry_fin F "distance" (d j) (Spec.meanOver Finset.univ d) _ m _ h1 h2
  unfold MPPar.gaussEntry at this
  rw [if_neg (by decide)] at this
  exact this

/-- **C128 with sampling** (what is computed instead of the claim). The moments of a vantage point are those of its distances to
all vantage points, among them the distance zero to itself. -/
theorem C128_sampled {P : Type} (F : MPPar.Dists) (w : World ℝ) (dist : String → P → P → ℝ) (metric : String) (smp : Sampling)
    (hs : smp ≠ .all) (nSamples : ℕ) {n t : ℕ} (X : Fin n → P) (T : Fin t → P) (out : Out ℝ t n)
    (h : suqhrMPG F w dist metric smp nSamples X T = .ok out) (i : Fin t) (c : Fin out.ind.length) (own : Fin out.ind.length → ℝ)
    (hown : own = fun a => if a = c then 0 else dist metric (X (out.ind.get c)) (X (out.ind.get a)))
    (h1 : 0 < Spec.stdDev Finset.univ (fun b => dist metric (T i) (X (out.ind.get b))))
    (h2 : 0 < Spec.stdDev Finset.univ own) :
    out.dist i c = .fin (Spec.mutualProximity "distance"
      (F.phi ((dist metric (T i) (X (out.ind.get c)) -
        Spec.meanOver Finset.univ (fun b => dist metric (T i) (X (out.ind.get b)))) /
          Spec.stdDev Finset.univ (fun b => dist metric (T i) (X (out.ind.get b)))))
      (F.phi ((dist metric (T i) (X (out.ind.get c)) - Spec.meanOver Finset.univ own) / Spec.stdDev Finset.univ own))) := by
  obtain ⟨_, _, hd⟩ := suqhrMPG_char F w dist metric smp nSamples X T out h
  rw [hd]
  refine mpgRow_eq F _ _ c _ _ h1 ?_ h2
  unfold mpgMoments
  simp only [if_neg hs]
  have hrow : Np.fillDiagonal (fun a b => dist metric (X (out.ind.get a)) (X (out.ind.get b))) 0 c = own := by
    rw [hown]
    funext a
    unfold Np.fillDiagonal
    by_cases hac : a = c
    · rw [if_pos hac, hac, if_pos rfl]
    · rw [if_neg hac, if_neg (fun e => hac (Fin.ext e.symm))]
  rw [hrow, list_nanmean c.pos, list_sd c.pos]

/-- **C212.** If the index returns as many neighbours as requested, nearest first: the neighbours are those of the
answer, and the secondary distance is one minus the probability that normal variables with the moments of the neighbour distances
of the test object, and of the training object without the first of its neighbours, are both larger. -/
theorem C212 (F : MPPar.Dists) {n t k : ℕ} (trainQuery : Fin n → ℕ → Answer ℝ n) (testQuery : Fin t → ℕ → Answer ℝ n)
    (post : ℝ → ℝ) (hk : 0 < k)
    (l1 : ∀ x, (trainQuery x (k + 1)).length = k + 1) (l2 : ∀ i, (testQuery i k).length = k)
    (s1 : ∀ x, (trainQuery x (k + 1)).Pairwise (fun p q => p.2 ≤ q.2)) (s2 : ∀ i, (testQuery i k).Pairwise (fun p q => p.2 ≤ q.2)) :
    ∃ out, hnswMPG F trainQuery testQuery post k = .ok out ∧ ∀ i j (near far : Fin k → ℝ),
      (out i j).1 = ((testQuery i k)[j.val]'(by rw [l2]; exact j.isLt)).1 ∧
      (near = (fun c => post ((testQuery i k)[c.val]'(by rw [l2]; exact c.isLt)).2) →
        far = (fun c => post ((trainQuery (out i j).1 (k + 1))[c.val + 1]'(by rw [l1]; omega)).2) →
        0 < Spec.stdDev Finset.univ near → 0 < Spec.stdDev Finset.univ far →
        (out i j).2 = .fin (Spec.mutualProximity "distance"
          (F.phi ((near j - Spec.meanOver Finset.univ near) / Spec.stdDev Finset.univ near))
          (F.phi ((near j - Spec.meanOver Finset.univ far) / Spec.stdDev Finset.univ far)))) := by
  have hne1 : ∀ i, trainQuery i (k + 1) ≠ [] := fun i h => by have := l1 i; rw [h] at this; simp at this
  have hne2 : ∀ i, testQuery i k ≠ [] := fun i h => by have := l2 i; rw [h] at this; simp at this; omega
  have e1 : ∀ x (c : Fin k), min (c.val + 1) ((trainQuery x (k + 1)).length - 1) = c.val + 1 := fun x c => by rw [l1]; omega
  have e2 : ∀ i (c : Fin k), min c.val ((testQuery i k).length - 1) = c.val := fun i c => by rw [l2]; omega
  have hfit : hnswFit trainQuery post k = .ok (fun i c =>
      (((trainQuery i (k + 1))[c.val + 1]'(by rw [l1]; omega)).1,
        post ((trainQuery i (k + 1))[c.val + 1]'(by rw [l1]; omega)).2)) := by
    refine tabulateM_ok _ _ (fun i => ?_)
    simp only
    rw [padRow_tail k _ (hne1 i) (s1 i)]
    simp only [e1]
    rfl
  have htr : hnswTrafo testQuery post k = .ok (fun i c =>
      (((testQuery i k)[c.val]'(by rw [l2]; omega)).1, post ((testQuery i k)[c.val]'(by rw [l2]; omega)).2)) := by
    refine tabulateM_ok _ _ (fun i => ?_)
    simp only
    rw [padRow_all k _ (hne2 i) (s2 i)]
    simp only [e2]
    rfl
  refine ⟨_, by unfold hnswMPG; rw [hfit, htr]; rfl, ?_⟩
  intro i j near far
  refine ⟨rfl, ?_⟩
  intro hnear hfar h1 h2
  simp only
  rw [← hnear]
  refine mpgRow_eq F near _ j _ _ h1 ?_ h2
  rw [list_nanmean hk, list_sd hk, hfar]

/-! ## The hypotheses can be met -/

-- The call with three vantage points succeeds (see LocalSample); the distances of the second to all three spread.
example : 0 < Spec.stdDev (Finset.univ : Finset (Fin 3))
    (fun a => if a = 1 then 0 else sqr "cosine" (pts ([0, 1, 2][(1 : Fin 3).val])) (pts ([0, 1, 2][a.val]))) := by
  apply Real.sqrt_pos.2
  unfold Spec.variance Spec.meanOver
  rw [Finset.card_univ, Fintype.card_fin, Fin.sum_univ_three, Fin.sum_univ_three]
  simp only [show ¬(0 : Fin 3) = 1 by decide, show ¬(2 : Fin 3) = 1 by decide, if_true, if_false]
  norm_num [sqr, pts0, pts1, pts2]

-- An index on three objects with two neighbours, nearest first; the object itself comes first.
example : ∃ (trainQuery : Fin 3 → ℕ → Answer ℝ 3) (testQuery : Fin 1 → ℕ → Answer ℝ 3),
    (∀ x, (trainQuery x 3).length = 3) ∧ (∀ i, (testQuery i 2).length = 2) ∧
    (∀ x, (trainQuery x 3).Pairwise (fun p q => p.2 ≤ q.2)) ∧ (∀ i, (testQuery i 2).Pairwise (fun p q => p.2 ≤ q.2)) ∧
    0 < Spec.stdDev (Finset.univ : Finset (Fin 2)) ![(1 : ℝ), 4] := by
  refine ⟨fun x _ => [(x, 0), (x + 1, 1), (x + 2, 4)], fun _ _ => [(0, 1), (1, 4)], fun _ => rfl, fun _ => rfl, ?_, ?_, ?_⟩
  · intro x
    simp
  · intro i
    simp
  · apply Real.sqrt_pos.2
    unfold Spec.variance Spec.meanOver
    rw [Finset.card_univ, Fintype.card_fin, Fin.sum_univ_two, Fin.sum_univ_two]
    norm_num

end HubToolbox.Approx
