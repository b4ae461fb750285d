import Verif.Relations.PipelineCos
import Verif.Relations.PipelineCount

/-!
# Evaluations of cosine distances in double precision, without gaps

C310: the counterpart of C309 for `cosine_distance`. Vectors must not point almost to the same direction (distance at least `δ`); cosine distances of an object to
others may be equal. `q = 1 / (1 - 4 (d + 2) 2^-53 / δ)`.
-/

set_option autoImplicit false

namespace HubToolbox.Relations

open HubToolbox Ieee Rounding

section
variable (L : CosLib ℝ) (hL : L.Near) {n d : ℕ} (hd : d ≤ 2 ^ 46) (X : Fin n → Fin d → ℝ) (hX : CosModerate X) (s : Fin n → Fin n → ℝ)
  (hs : s = fun i j => 1 - Spec.cosAngle (X i) (X j)) (δ : ℝ) (hδ : 64 * (d + 2) * 2 ^ (-53 : ℤ) ≤ δ) (hsδ : ∀ i j, i ≠ j → δ ≤ s i j)
  (q : ℝ) (hq : q = 1 / (1 - 4 * (d + 2) * 2 ^ (-53 : ℤ) / δ))
include hL hd hX hs hδ hsδ hq

theorem cosine_measured : ∃ z : Fin n → Fin n → ℝ, (double.rounding ℝ).cosineDistance L (fun i f => .fin (X i f)) = LS.toXR z ∧
    (∀ i j, z i j = z j i) ∧ Spec.UpTo q s z ∧ 1 ≤ q ∧ (∀ i j, s i j = s j i) ∧ (∀ i j, i ≠ j → 0 < s i j) ∧ Dist.cosineDistance X = LS.toXR s := by
  have hu := u_pos
  rw [← u_eq] at hδ hq
  obtain ⟨z, hz, hzs, -, hup, -⟩ := cosine_upTo L hL hd X hX s hs δ hδ hsδ
  have hδ0 : 0 < δ := lt_of_lt_of_le (by positivity) hδ
  refine ⟨z, hz, hzs, hq ▸ hup, ?_, fun i j => ?_, fun i j h => hδ0.trans_le (hsδ i j h), cosine_exact X hX s hs⟩
  · rw [hq]
    exact (factor_bounds (by positivity) (by rw [div_le_iff₀ hδ0]; linarith)).1
  · rw [hs]
    beta_reduce
    unfold Spec.cosAngle
    rw [mul_comm (Spec.vecNorm (X i))]
    congr 2
    exact Finset.sum_congr rfl fun f _ => mul_comm _ _

/-- **C310** (hubness). -/
theorem C310_hubness (o o' : ArgPart (XR ℝ)) (rnd rnd' : Hubness.Rnd) (sched sched' : Hubness.Schedule) (sparse sparse' : Bool) (k : ℕ) (h1 : 1 ≤ k)
    (hk : k < n) (nJobs nJobs' : ℤ) (hj : nJobs = -1 ∨ 1 ≤ nJobs) (hj' : nJobs' = -1 ∨ 1 ≤ nJobs') (shuffle shuffle' : Bool) (r : Fin n → ℝ)
    (hr : ∀ i, Spec.IsKthSmallest (Finset.univ.erase i) (s i) k (r i)) :
    ∃ res res' : Hubness.Res n, Hubness.hubnessMat o rnd sched sparse (Dist.cosineDistance X) k "distance" nJobs false shuffle = .ok res ∧
      Hubness.hubnessMat o' rnd' sched' sparse' ((double.rounding ℝ).cosineDistance L (fun i f => .fin (X i f))) k "distance" nJobs' false shuffle' = .ok res' ∧
      res.Nk.length = n ∧ res'.Nk.length = n ∧ ∀ (j : Fin n) (a b : ℕ), res.Nk[j.val]? = some a → res'.Nk[j.val]? = some b → |(b : ℝ) - a| ≤
        ((Finset.univ.filter fun i => i ≠ j ∧ k < (Spec.candidates q s i (r i)).card ∧ r i ≤ q ^ 2 * s i j ∧ s i j ≤ q ^ 2 * r i).card : ℝ) := by
  obtain ⟨z, hz, -, hup, hq1, -, hs0, he⟩ := cosine_measured L hL hd X hX s hs δ hδ hsδ q hq
  rw [hz, he]
  convert C306 o o' rnd rnd' sched sched' sparse sparse' s z q hq1 hup hs0 k h1 hk nJobs nJobs' hj hj' shuffle shuffle' r hr

open Classical in
/-- **C310** (k-NN classification). -/
theorem C310_score (srt srt' : Knn.ArgSort (XR ℝ)) (o o' : ArgPart (XR ℝ)) (rnd rnd' : Knn.Rnd) (lab : Fin n → ℤ) (ks : List ℤ)
    (hks : ∀ k ∈ ks, 1 ≤ k ∧ k < n) (r : ℤ → Fin n → ℝ) (hr : ∀ k ∈ ks, ∀ i, Spec.IsKthSmallest (Finset.univ.erase i) (s i) k.toNat (r k i)) (hn : 0 < n) :
    ∃ res res' : Knn.Res ℝ n, Knn.score srt o rnd (.mat false n n (Dist.cosineDistance X)) (.vec n lab) (.list ks) "distance" none = .ok ⟨n, res⟩ ∧
      Knn.score srt' o' rnd' (.mat false n n ((double.rounding ℝ).cosineDistance L (fun i f => .fin (X i f)))) (.vec n lab) (.list ks) "distance" none =
        .ok ⟨n, res'⟩ ∧
      ∀ j (hj : j < ks.length), ∃ t t', res.perK[j]? = some t ∧ res'.perK[j]? = some t' ∧
        (∀ i, Spec.ClearVote q s lab ks[j].toNat (r ks[j] i) i → t'.corr i = t.corr i) ∧
        |t'.acc - t.acc| ≤ ((Finset.univ.filter fun i => ¬ Spec.ClearVote q s lab ks[j].toNat (r ks[j] i) i).card : ℝ) / n := by
  obtain ⟨z, hz, -, hup, hq1, -, hs0, he⟩ := cosine_measured L hL hd X hX s hs δ hδ hsδ q hq
  rw [hz, he]
  exact C307 srt srt' o o' rnd rnd' s z q hq1 hup hs0 lab ks hks r hr hn

/-- **C310** (Goodman-Kruskal index). -/
theorem C310_index (cls : Fin n → ℤ) (hT : (Spec.untiedQuads s cls).Nonempty) :
    ∃ g g' : ℝ, GK.index (.mat false n n (Dist.cosineDistance X)) (.vec n cls) "distance" = .ok g ∧
      GK.index (.mat false n n ((double.rounding ℝ).cosineDistance L (fun i f => .fin (X i f)))) (.vec n cls) "distance" = .ok g' ∧
      |g' - g| ≤ 2 * (Spec.doubtfulQuads q s cls).card / (Spec.untiedQuads s cls).card := by
  obtain ⟨z, hz, hzs, hup, hq1, hss, hs0, he⟩ := cosine_measured L hL hd X hX s hs δ hδ hsδ q hq
  rw [hz, he]
  exact C308 s z q hq1 hup hss hzs hs0 cls hT

open Classical in
/-- **C310** (Mutual Proximity). -/
theorem C310_mutual_proximity (order order' : MPEmp.Order ℝ) (sp sp' : Bool) (minNnz minNnz' : ℤ) :
    ∃ M M' : Fin n → Fin n → ℝ, MPEmp.full order (.obj (.mat sp n n (Dist.cosineDistance X))) "distance" none minNnz = .ok (.dense n M) ∧
      MPEmp.full order' (.obj (.mat sp' n n ((double.rounding ℝ).cosineDistance L (fun i f => .fin (X i f))))) "distance" none minNnz' = .ok (.dense n M') ∧
      ∀ i j, |M' i j - M i j| ≤
        ((Finset.univ.filter fun a => a ≠ i ∧ a ≠ j ∧ (Spec.doubtful q s i j a ∨ Spec.doubtful q s j i a)).card : ℝ) / n := by
  obtain ⟨z, hz, hzs, hup, hq1, hss, hs0, he⟩ := cosine_measured L hL hd X hX s hs δ hδ hsδ q hq
  rw [hz, he]
  exact C304 order order' s z q hq1 hup hss hzs hs0 sp sp' minNnz minNnz'

end

/-! ### Instances -/

theorem rightDist_eq : rightDist = fun i j => 1 - Spec.cosAngle (right3 i) (right3 j) := funext fun i => funext fun j => (right3_dist i j).symm

theorem rightDist_apart (i j : Fin 3) (h : i ≠ j) : 2 / 5 ≤ rightDist i j := by rw [← right3_dist]; exact right3_apart i j h

theorem rightDist_radius (i : Fin 3) : Spec.IsKthSmallest (Finset.univ.erase i) (rightDist i) 1 ((![2 / 5, 2 / 5, 1] : Fin 3 → ℝ) i) := by
  refine LS.kthSmallest_one ((![1, 0, 1] : Fin 3 → Fin 3) i) (by fin_cases i <;> decide) (by fin_cases i <;> norm_num [rightDist]) fun l hl => ?_
  have := Finset.ne_of_mem_erase hl
  fin_cases i <;> fin_cases l <;> first | exact absurd rfl this | norm_num [rightDist]

theorem rightDist_untied : ((0, 1), (0, 2)) ∈ Spec.untiedQuads rightDist ![1, 1, 2] := by
  refine Finset.mem_filter.2 ⟨Finset.mem_univ _, by decide, rfl, by decide, by decide, ?_⟩
  show (2 / 5 : ℝ) ≠ 9 / 5
  norm_num

example (o o' : ArgPart (XR ℝ)) (rnd rnd' : Hubness.Rnd) (sched sched' : Hubness.Schedule) := C310_hubness CosLib.rounded CosLib.rounded_near
  (by norm_num) right3 right3_moderate rightDist rightDist_eq (2 / 5) (by norm_num) rightDist_apart _ rfl o o' rnd rnd' sched sched' false false 1 le_rfl
  (by norm_num) 1 4 (Or.inr le_rfl) (Or.inr (by norm_num)) true true _ rightDist_radius

example (srt srt' : Knn.ArgSort (XR ℝ)) (o o' : ArgPart (XR ℝ)) (rnd rnd' : Knn.Rnd) := C310_score CosLib.rounded CosLib.rounded_near
  (by norm_num) right3 right3_moderate rightDist rightDist_eq (2 / 5) (by norm_num) rightDist_apart _ rfl srt srt' o o' rnd rnd' ![1, 1, 2] [1]
  (by intro k hk; rw [List.mem_singleton] at hk; omega) (fun _ => ![2 / 5, 2 / 5, 1])
  (by intro k hk i; rw [List.mem_singleton] at hk; subst hk; exact rightDist_radius i) (by norm_num)

example := C310_index CosLib.rounded CosLib.rounded_near (by norm_num) right3 right3_moderate rightDist rightDist_eq (2 / 5) (by norm_num) rightDist_apart _ rfl
  ![1, 1, 2] ⟨_, rightDist_untied⟩

example (order order' : MPEmp.Order ℝ) := C310_mutual_proximity CosLib.rounded CosLib.rounded_near (by norm_num) right3 right3_moderate rightDist rightDist_eq
  (2 / 5) (by norm_num) rightDist_apart _ rfl order order' false false 0 0

end HubToolbox.Relations
