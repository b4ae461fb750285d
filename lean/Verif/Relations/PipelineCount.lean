import Verif.Relations.Pipeline
import Verif.Relations.RobustKnn
import Verif.Relations.RobustGk

/-!
# Evaluations of feature vectors in double precision, without gaps

C309: C280 needs distances which differ by more than the rounding errors. Here nothing is assumed about the distances from an object to the others (they may
be equal): hubness, k-NN accuracies, the Goodman-Kruskal index and Mutual Proximity of `euclidean_distance(X)` computed in double precision differ from those
of the exact distances at most as far as there are objects whose exact distances agree up to a factor `q²`, `q = 1 / (1 - 2 (d + 2) 2^-53)`.
-/

set_option autoImplicit false

namespace HubToolbox.Relations

open HubToolbox Ieee Rounding

section
variable (L : CosLib ℝ) (hL : L.Near) (h0 : L.sqrt (.fin 0) = .fin 0) {n d : ℕ} (hd : d ≤ 2 ^ 46) (X : Fin n → Fin d → ℝ) (hX : EucModerate X)
  (s : Fin n → Fin n → ℝ) (hs : s = fun i j => √(∑ f, (X i f - X j f) ^ 2)) (hrange : ∀ i j, i ≠ j → 2 ^ (-199 : ℤ) ≤ s i j ∧ s i j ≤ 2 ^ (199 : ℤ))
  (q : ℝ) (hq : q = 1 / (1 - 2 * (d + 2) * 2 ^ (-53 : ℤ)))
include hL h0 hd hX hs hrange hq

theorem euclid_measured : ∃ z : Fin n → Fin n → ℝ, (double.rounding ℝ).euclideanDistance L (fun i f => .fin (X i f)) = LS.toXR z ∧
    (∀ i j, z i j = z j i) ∧ Spec.UpTo q s z ∧ 1 ≤ q ∧ (∀ i j, s i j = s j i) ∧ ∀ i j, i ≠ j → 0 < s i j := by
  obtain ⟨z, hz, hzs, hup, -⟩ := euclid_upTo L hL h0 hd X hX s hs hrange
  have hu := u_pos
  have hqu : q = 1 / (1 - 2 * ((d : ℝ) + 2) * u) := by rw [hq, u_eq]
  refine ⟨z, hz, hzs, hqu ▸ hup, ?_, fun i j => ?_, fun i j h => lt_of_lt_of_le (by positivity) (hrange i j h).1⟩
  · rw [hqu]
    exact (factor_bounds (by positivity) (pow_two_le hd).2).1
  · rw [hs]
    beta_reduce
    congr 1
    exact Finset.sum_congr rfl fun f _ => by ring

/-- **C309** (hubness). -/
theorem C309_hubness (o o' : ArgPart (XR ℝ)) (rnd rnd' : Hubness.Rnd) (sched sched' : Hubness.Schedule) (sparse sparse' : Bool) (k : ℕ) (h1 : 1 ≤ k)
    (hk : k < n) (nJobs nJobs' : ℤ) (hj : nJobs = -1 ∨ 1 ≤ nJobs) (hj' : nJobs' = -1 ∨ 1 ≤ nJobs') (shuffle shuffle' : Bool) (r : Fin n → ℝ)
    (hr : ∀ i, Spec.IsKthSmallest (Finset.univ.erase i) (s i) k (r i)) :
    ∃ res res' : Hubness.Res n, Hubness.hubnessMat o rnd sched sparse (LS.toXR s) k "distance" nJobs false shuffle = .ok res ∧
      Hubness.hubnessMat o' rnd' sched' sparse' ((double.rounding ℝ).euclideanDistance L (fun i f => .fin (X i f))) k "distance" nJobs' false shuffle' = .ok res' ∧
      res.Nk.length = n ∧ res'.Nk.length = n ∧ ∀ (j : Fin n) (a b : ℕ), res.Nk[j.val]? = some a → res'.Nk[j.val]? = some b → |(b : ℝ) - a| ≤
        ((Finset.univ.filter fun i => i ≠ j ∧ k < (Spec.candidates q s i (r i)).card ∧ r i ≤ q ^ 2 * s i j ∧ s i j ≤ q ^ 2 * r i).card : ℝ) := by
  obtain ⟨z, hz, -, hup, hq1, -, hs0⟩ := euclid_measured L hL h0 hd X hX s hs hrange q hq
  rw [hz]
  convert C306 o o' rnd rnd' sched sched' sparse sparse' s z q hq1 hup hs0 k h1 hk nJobs nJobs' hj hj' shuffle shuffle' r hr

open Classical in
/-- **C309** (k-NN classification). -/
theorem C309_score (srt srt' : Knn.ArgSort (XR ℝ)) (o o' : ArgPart (XR ℝ)) (rnd rnd' : Knn.Rnd) (lab : Fin n → ℤ) (ks : List ℤ)
    (hks : ∀ k ∈ ks, 1 ≤ k ∧ k < n) (r : ℤ → Fin n → ℝ) (hr : ∀ k ∈ ks, ∀ i, Spec.IsKthSmallest (Finset.univ.erase i) (s i) k.toNat (r k i)) (hn : 0 < n) :
    ∃ res res' : Knn.Res ℝ n, Knn.score srt o rnd (.mat false n n (LS.toXR s)) (.vec n lab) (.list ks) "distance" none = .ok ⟨n, res⟩ ∧
      Knn.score srt' o' rnd' (.mat false n n ((double.rounding ℝ).euclideanDistance L (fun i f => .fin (X i f)))) (.vec n lab) (.list ks) "distance" none =
        .ok ⟨n, res'⟩ ∧
      ∀ j (hj : j < ks.length), ∃ t t', res.perK[j]? = some t ∧ res'.perK[j]? = some t' ∧
        (∀ i, Spec.ClearVote q s lab ks[j].toNat (r ks[j] i) i → t'.corr i = t.corr i) ∧
        |t'.acc - t.acc| ≤ ((Finset.univ.filter fun i => ¬ Spec.ClearVote q s lab ks[j].toNat (r ks[j] i) i).card : ℝ) / n := by
  obtain ⟨z, hz, -, hup, hq1, -, hs0⟩ := euclid_measured L hL h0 hd X hX s hs hrange q hq
  rw [hz]
  exact C307 srt srt' o o' rnd rnd' s z q hq1 hup hs0 lab ks hks r hr hn

/-- **C309** (Goodman-Kruskal index). -/
theorem C309_index (cls : Fin n → ℤ) (hT : (Spec.untiedQuads s cls).Nonempty) :
    ∃ g g' : ℝ, GK.index (.mat false n n (LS.toXR s)) (.vec n cls) "distance" = .ok g ∧
      GK.index (.mat false n n ((double.rounding ℝ).euclideanDistance L (fun i f => .fin (X i f)))) (.vec n cls) "distance" = .ok g' ∧
      |g' - g| ≤ 2 * (Spec.doubtfulQuads q s cls).card / (Spec.untiedQuads s cls).card := by
  obtain ⟨z, hz, hzs, hup, hq1, hss, hs0⟩ := euclid_measured L hL h0 hd X hX s hs hrange q hq
  rw [hz]
  exact C308 s z q hq1 hup hss hzs hs0 cls hT

open Classical in
/-- **C309** (Mutual Proximity). -/
theorem C309_mutual_proximity (order order' : MPEmp.Order ℝ) (sp sp' : Bool) (minNnz minNnz' : ℤ) :
    ∃ M M' : Fin n → Fin n → ℝ, MPEmp.full order (.obj (.mat sp n n (LS.toXR s))) "distance" none minNnz = .ok (.dense n M) ∧
      MPEmp.full order' (.obj (.mat sp' n n ((double.rounding ℝ).euclideanDistance L (fun i f => .fin (X i f))))) "distance" none minNnz' =
        .ok (.dense n M') ∧
      ∀ i j, |M' i j - M i j| ≤
        ((Finset.univ.filter fun a => a ≠ i ∧ a ≠ j ∧ (Spec.doubtful q s i j a ∨ Spec.doubtful q s j i a)).card : ℝ) / n := by
  obtain ⟨z, hz, hzs, hup, hq1, hss, hs0⟩ := euclid_measured L hL h0 hd X hX s hs hrange q hq
  rw [hz]
  exact C304 order order' s z q hq1 hup hss hzs hs0 sp sp' minNnz minNnz'

end

/-! ### Instances -/

example (o o' : ArgPart (XR ℝ)) (rnd rnd' : Hubness.Rnd) (sched sched' : Hubness.Schedule) := C309_hubness CosLib.rounded CosLib.rounded_near
  CosLib.rounded_sqrt_zero (by norm_num) points3 points3_moderate LS.line3 points3_dist line3_range _ rfl o o' rnd rnd' sched sched' false false 1 le_rfl
  (by norm_num) 1 4 (Or.inr le_rfl) (Or.inr (by norm_num)) true true _ line3_radius

example (srt srt' : Knn.ArgSort (XR ℝ)) (o o' : ArgPart (XR ℝ)) (rnd rnd' : Knn.Rnd) := C309_score CosLib.rounded CosLib.rounded_near
  CosLib.rounded_sqrt_zero (by norm_num) points3 points3_moderate LS.line3 points3_dist line3_range _ rfl srt srt' o o' rnd rnd' ![1, 1, 2] [1]
  (by intro k hk; rw [List.mem_singleton] at hk; omega) (fun _ => ![1, 1, 2])
  (by intro k hk i; rw [List.mem_singleton] at hk; subst hk; exact line3_radius i) (by norm_num)

example := C309_index CosLib.rounded CosLib.rounded_near CosLib.rounded_sqrt_zero (by norm_num) points3 points3_moderate LS.line3 points3_dist line3_range _ rfl
  ![1, 1, 2] ⟨_, line3_untied⟩

example (order order' : MPEmp.Order ℝ) := C309_mutual_proximity CosLib.rounded CosLib.rounded_near CosLib.rounded_sqrt_zero (by norm_num) points3
  points3_moderate LS.line3 points3_dist line3_range _ rfl order order' false false 0 0

end HubToolbox.Relations
