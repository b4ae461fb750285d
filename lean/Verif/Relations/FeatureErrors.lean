import Verif.Relations.PipelineCount
import Verif.Rounding.Single
import Verif.IntDim.Robust

/-!
# Errors of the features

C312: two versions `X`, `Y` of the data, e.g. measured twice or stored in double and in single precision, whose vectors differ by at most `η` (Euclidean norm),
where different vectors of `X` have distances of at least `δ > 2 η`. The Euclidean distances agree up to `2 η` and up to the factor `q = δ / (δ - 2 η)`, so that
the results of hubness reduction and of the evaluations are as close as C298, C304–C308 and C311 say. Numbers stored in single precision have
`η = 2^-24 r`, where `r` bounds the norms.
-/

set_option autoImplicit false

namespace HubToolbox.Relations

open HubToolbox

/-- Triangle inequality. -/
theorem vecNorm_add_le {d : ℕ} (a b : Fin d → ℝ) : Spec.vecNorm (fun f => a f + b f) ≤ Spec.vecNorm a + Spec.vecNorm b := by
  unfold Spec.vecNorm
  rw [Real.sqrt_le_left (add_nonneg (Real.sqrt_nonneg _) (Real.sqrt_nonneg _))]
  have h1 := Real.sum_mul_le_sqrt_mul_sqrt Finset.univ a b
  have ha : √(∑ f, a f ^ 2) ^ 2 = ∑ f, a f ^ 2 := Real.sq_sqrt (Finset.sum_nonneg fun f _ => sq_nonneg _)
  have hb : √(∑ f, b f ^ 2) ^ 2 = ∑ f, b f ^ 2 := Real.sq_sqrt (Finset.sum_nonneg fun f _ => sq_nonneg _)
  have e : ∑ f, (a f + b f) ^ 2 = ∑ f, a f ^ 2 + 2 * ∑ f, a f * b f + ∑ f, b f ^ 2 := by
    rw [Finset.mul_sum, ← Finset.sum_add_distrib, ← Finset.sum_add_distrib]
    exact Finset.sum_congr rfl fun f _ => by ring
  rw [e, add_sq, ha, hb]
  linarith

theorem vecNorm_neg {d : ℕ} (a b : Fin d → ℝ) : Spec.vecNorm (fun f => a f - b f) = Spec.vecNorm (fun f => b f - a f) := by
  unfold Spec.vecNorm
  congr 1
  exact Finset.sum_congr rfl fun f _ => by ring

/-- Moving both ends changes a distance by at most the sum of the two moves. -/
theorem moved_le {d : ℕ} (x y x' y' : Fin d → ℝ) : Spec.vecNorm (fun f => x' f - y' f) ≤
    Spec.vecNorm (fun f => x f - y f) + Spec.vecNorm (fun f => x' f - x f) + Spec.vecNorm (fun f => y' f - y f) := by
  have h1 := vecNorm_add_le (fun f => (x f - y f) + (x' f - x f)) (fun f => y f - y' f)
  have h2 := vecNorm_add_le (fun f => x f - y f) (fun f => x' f - x f)
  have e : (fun f => (x f - y f) + (x' f - x f) + (y f - y' f)) = fun f => x' f - y' f := by
    funext f
    ring
  beta_reduce at h1 h2
  rw [e, vecNorm_neg y y'] at h1
  linarith

theorem euclid_eq {n d : ℕ} (X : Fin n → Fin d → ℝ) (i j : Fin n) : Dist.euclideanDistance X i j = Spec.vecNorm (fun f => X i f - X j f) := by
  unfold Dist.euclideanDistance
  rcases lt_trichotomy i j with h | h | h
  · rw [if_pos h]
    rfl
  · subst h
    simp [Spec.vecNorm]
  · rw [if_neg h.not_gt, if_pos h, vecNorm_neg]
    rfl

section
variable {n d : ℕ} (X Y : Fin n → Fin d → ℝ) (η δ : ℝ) (hη0 : 0 ≤ η) (hη : ∀ i, Spec.vecNorm (fun f => Y i f - X i f) ≤ η) (hδ : 2 * η < δ)
  (hX : ∀ i j, i ≠ j → δ ≤ Dist.euclideanDistance X i j) (q : ℝ) (hq : q = δ / (δ - 2 * η))

include hη in
/-- **C312** (distances). -/
theorem C312_distances (i j : Fin n) : |Dist.euclideanDistance Y i j - Dist.euclideanDistance X i j| ≤ 2 * η := by
  rw [euclid_eq, euclid_eq]
  have h1 := moved_le (X i) (X j) (Y i) (Y j)
  have h2 := moved_le (Y i) (Y j) (X i) (X j)
  rw [vecNorm_neg (X i) (Y i), vecNorm_neg (X j) (Y j)] at h2
  have hi := hη i
  have hj := hη j
  rw [abs_le]
  constructor <;> linarith

include hη0 hη hδ hX hq

/-- **C312** (factor). -/
theorem C312_factor : Spec.UpTo q (Dist.euclideanDistance X) (Dist.euclideanDistance Y) ∧ 1 ≤ q ∧
    (∀ i j, Dist.euclideanDistance X i j = Dist.euclideanDistance X j i) ∧ (∀ i j, Dist.euclideanDistance Y i j = Dist.euclideanDistance Y j i) ∧
    (∀ i j, i ≠ j → 0 < Dist.euclideanDistance X i j) ∧ ∀ i j, i ≠ j → 0 < Dist.euclideanDistance Y i j := by
  have hpos : 0 < δ - 2 * η := by linarith
  have hs : ∀ (Z : Fin n → Fin d → ℝ) i j, Dist.euclideanDistance Z i j = Dist.euclideanDistance Z j i := fun Z i j => by
    rw [euclid_eq, euclid_eq, vecNorm_neg]
  refine ⟨fun i j hij => ?_, ?_, hs X, hs Y, fun i j hij => by linarith [hX i j hij], fun i j hij => ?_⟩
  · have h := abs_le.1 (C312_distances X Y η hη i j)
    have hx := hX i j hij
    rw [hq, div_mul_eq_mul_div, div_mul_eq_mul_div, le_div_iff₀ hpos, le_div_iff₀ hpos]
    constructor
    · nlinarith [h.1, h.2, mul_nonneg hη0 (by linarith : 0 ≤ Dist.euclideanDistance X i j - δ)]
    · nlinarith [h.1, h.2, mul_nonneg hη0 (by linarith : 0 ≤ Dist.euclideanDistance X i j - δ)]
  · rw [hq, le_div_iff₀ hpos]
    linarith
  · have h := abs_le.1 (C312_distances X Y η hη i j)
    linarith [h.1, hX i j hij]

/-- **C312** (Local Scaling). -/
theorem C312_local_scaling (w w' : LS.World) (hn : 0 < n) (k : ℕ) (hk : 1 ≤ k) (test : Option (List ℤ))
    (hcard : ∀ i, k ≤ ((Spec.training n test).erase i).card) (nJobs nJobs' : ℤ) (hj : nJobs = -1 ∨ 1 ≤ nJobs) (hj' : nJobs' = -1 ∨ 1 ≤ nJobs') :
    ∃ M M' : Fin n → Fin n → ℝ, LS.localScaling w (.mat false n n (LS.toXR (Dist.euclideanDistance X))) k "distance" test nJobs = .ok ⟨n, LS.toXR M⟩ ∧
      LS.localScaling w' (.mat false n n (LS.toXR (Dist.euclideanDistance Y))) k "distance" test nJobs' = .ok ⟨n, LS.toXR M'⟩ ∧
      ∀ i j, |M' i j - M i j| ≤ q ^ 4 - 1 := by
  obtain ⟨h, hq1, hx, hy, hx0, hy0⟩ := C312_factor X Y η δ hη0 hη hδ hX q hq
  obtain ⟨M, M', a, b, c, -⟩ := C298_local_scaling w w' hn _ _ q hq1 h hx hy hx0 hy0 k hk test hcard nJobs nJobs' hj hj'
  exact ⟨M, M', a, b, c⟩

/-- **C312** (NICDM). -/
theorem C312_nicdm (w w' : LS.World) (hn : 0 < n) (k : ℕ) (hk : 1 ≤ k) (test : Option (List ℤ))
    (hcard : ∀ i, k ≤ ((Spec.training n test).erase i).card) (nJobs nJobs' : ℤ) :
    ∃ M M' : Fin n → Fin n → ℝ, LS.nicdm w (.mat false n n (LS.toXR (Dist.euclideanDistance X))) k "distance" test nJobs = .ok ⟨n, LS.toXR M⟩ ∧
      LS.nicdm w' (.mat false n n (LS.toXR (Dist.euclideanDistance Y))) k "distance" test nJobs' = .ok ⟨n, LS.toXR M'⟩ ∧ Spec.UpTo (q ^ 3) M M' := by
  obtain ⟨h, hq1, hx, hy, hx0, hy0⟩ := C312_factor X Y η δ hη0 hη hδ hX q hq
  obtain ⟨M, M', a, b, c, -⟩ := C298_nicdm w w' hn _ _ q hq1 h hx hy hx0 hy0 k hk test hcard nJobs nJobs'
  exact ⟨M, M', a, b, c⟩

open Classical in
/-- **C312** (Mutual Proximity). -/
theorem C312_mutual_proximity (order order' : MPEmp.Order ℝ) (sp sp' : Bool) (minNnz minNnz' : ℤ) :
    ∃ M M' : Fin n → Fin n → ℝ, MPEmp.full order (.obj (.mat sp n n (LS.toXR (Dist.euclideanDistance X)))) "distance" none minNnz = .ok (.dense n M) ∧
      MPEmp.full order' (.obj (.mat sp' n n (LS.toXR (Dist.euclideanDistance Y)))) "distance" none minNnz' = .ok (.dense n M') ∧
      ∀ i j, |M' i j - M i j| ≤ ((Finset.univ.filter fun a => a ≠ i ∧ a ≠ j ∧
        (Spec.doubtful q (Dist.euclideanDistance X) i j a ∨ Spec.doubtful q (Dist.euclideanDistance X) j i a)).card : ℝ) / n := by
  obtain ⟨h, hq1, hx, hy, hx0, -⟩ := C312_factor X Y η δ hη0 hη hδ hX q hq
  exact C304 order order' _ _ q hq1 h hx hy hx0 sp sp' minNnz minNnz'

/-- **C312** (shared nearest neighbours). -/
theorem C312_snn (w w' : SNN.World ℝ) (k : ℕ) (h1 : 1 ≤ k) (hk : k < n) (nJobs nJobs' : ℤ) (r : Fin n → ℝ)
    (hr : ∀ i, Spec.IsKthSmallest (Finset.univ.erase i) (Dist.euclideanDistance X i) k (r i)) :
    ∃ M M' : Fin n → Fin n → ℝ,
      SNN.sharedNearestNeighbors w (.mat false n n (LS.toXR (Dist.euclideanDistance X))) k "distance" nJobs = .ok ⟨n, LS.toXR M⟩ ∧
      SNN.sharedNearestNeighbors w' (.mat false n n (LS.toXR (Dist.euclideanDistance Y))) k "distance" nJobs' = .ok ⟨n, LS.toXR M'⟩ ∧
      ∀ i j, |M' i j - M i j| ≤ ((((Spec.candidates q (Dist.euclideanDistance X) i (r i)).card - k) +
        ((Spec.candidates q (Dist.euclideanDistance X) j (r j)).card - k) : ℕ) : ℝ) / k := by
  obtain ⟨h, hq1, -, -, hx0, -⟩ := C312_factor X Y η δ hη0 hη hδ hX q hq
  exact C305 w w' _ _ q hq1 h hx0 k h1 hk nJobs nJobs' r hr

/-- **C312** (hubness). -/
theorem C312_hubness (o o' : ArgPart (XR ℝ)) (rnd rnd' : Hubness.Rnd) (sched sched' : Hubness.Schedule) (sparse sparse' : Bool) (k : ℕ) (h1 : 1 ≤ k)
    (hk : k < n) (nJobs nJobs' : ℤ) (hj : nJobs = -1 ∨ 1 ≤ nJobs) (hj' : nJobs' = -1 ∨ 1 ≤ nJobs') (shuffle shuffle' : Bool) (r : Fin n → ℝ)
    (hr : ∀ i, Spec.IsKthSmallest (Finset.univ.erase i) (Dist.euclideanDistance X i) k (r i)) :
    ∃ res res' : Hubness.Res n,
      Hubness.hubnessMat o rnd sched sparse (LS.toXR (Dist.euclideanDistance X)) k "distance" nJobs false shuffle = .ok res ∧
      Hubness.hubnessMat o' rnd' sched' sparse' (LS.toXR (Dist.euclideanDistance Y)) k "distance" nJobs' false shuffle' = .ok res' ∧
      res.Nk.length = n ∧ res'.Nk.length = n ∧ ∀ (j : Fin n) (a b : ℕ), res.Nk[j.val]? = some a → res'.Nk[j.val]? = some b → |(b : ℝ) - a| ≤
        ((Finset.univ.filter fun i => i ≠ j ∧ k < (Spec.candidates q (Dist.euclideanDistance X) i (r i)).card ∧
          r i ≤ q ^ 2 * Dist.euclideanDistance X i j ∧ Dist.euclideanDistance X i j ≤ q ^ 2 * r i).card : ℝ) := by
  obtain ⟨h, hq1, -, -, hx0, -⟩ := C312_factor X Y η δ hη0 hη hδ hX q hq
  convert C306 o o' rnd rnd' sched sched' sparse sparse' _ _ q hq1 h hx0 k h1 hk nJobs nJobs' hj hj' shuffle shuffle' r hr

open Classical in
/-- **C312** (k-NN classification). -/
theorem C312_score (srt srt' : Knn.ArgSort (XR ℝ)) (o o' : ArgPart (XR ℝ)) (rnd rnd' : Knn.Rnd) (lab : Fin n → ℤ) (ks : List ℤ)
    (hks : ∀ k ∈ ks, 1 ≤ k ∧ k < n) (r : ℤ → Fin n → ℝ)
    (hr : ∀ k ∈ ks, ∀ i, Spec.IsKthSmallest (Finset.univ.erase i) (Dist.euclideanDistance X i) k.toNat (r k i)) (hn : 0 < n) :
    ∃ res res' : Knn.Res ℝ n,
      Knn.score srt o rnd (.mat false n n (LS.toXR (Dist.euclideanDistance X))) (.vec n lab) (.list ks) "distance" none = .ok ⟨n, res⟩ ∧
      Knn.score srt' o' rnd' (.mat false n n (LS.toXR (Dist.euclideanDistance Y))) (.vec n lab) (.list ks) "distance" none = .ok ⟨n, res'⟩ ∧
      ∀ j (hj : j < ks.length), ∃ t t', res.perK[j]? = some t ∧ res'.perK[j]? = some t' ∧
        (∀ i, Spec.ClearVote q (Dist.euclideanDistance X) lab ks[j].toNat (r ks[j] i) i → t'.corr i = t.corr i) ∧
        |t'.acc - t.acc| ≤
          ((Finset.univ.filter fun i => ¬ Spec.ClearVote q (Dist.euclideanDistance X) lab ks[j].toNat (r ks[j] i) i).card : ℝ) / n := by
  obtain ⟨h, hq1, -, -, hx0, -⟩ := C312_factor X Y η δ hη0 hη hδ hX q hq
  exact C307 srt srt' o o' rnd rnd' _ _ q hq1 h hx0 lab ks hks r hr hn

/-- **C312** (Goodman-Kruskal index). -/
theorem C312_index (cls : Fin n → ℤ) (hT : (Spec.untiedQuads (Dist.euclideanDistance X) cls).Nonempty) :
    ∃ g g' : ℝ, GK.index (.mat false n n (LS.toXR (Dist.euclideanDistance X))) (.vec n cls) "distance" = .ok g ∧
      GK.index (.mat false n n (LS.toXR (Dist.euclideanDistance Y))) (.vec n cls) "distance" = .ok g' ∧
      |g' - g| ≤ 2 * (Spec.doubtfulQuads q (Dist.euclideanDistance X) cls).card / (Spec.untiedQuads (Dist.euclideanDistance X) cls).card := by
  obtain ⟨h, hq1, hx, hy, hx0, -⟩ := C312_factor X Y η δ hη0 hη hδ hX q hq
  exact C308 _ _ q hq1 h hx hy hx0 cls hT

/-- **C312** (intrinsic dimension). -/
theorem C312_dimension (L : IntDim.LexSort) (hd : d ≠ 0) (T : Fin n → ℕ → ℝ) (hT : ∀ i, IntDim.Spec.Neighbours X i (T i)) (k1 k2 : ℕ) (h1 : 2 ≤ k1)
    (h12 : k1 ≤ k2) (h2 : k2 < n) (hne : ∀ i, T i 0 < T i (k1 - 1)) (ε : ℝ) (hε : ε < 1)
    (hs : ∀ i k, k1 ≤ k → k ≤ k2 → 2 * ((k : ℝ) - 1) * Real.log q ≤ ε * IntDim.Spec.logRatios (T i) k)
    (estimator : String) (he : estimator = "levina" ∨ estimator = "mackay") (mem mem' : ℤ) :
    ∃ a b : ℝ, IntDim.intrinsicDimension L X k1 k2 estimator "vector" none mem = .ok (.fin a) ∧
      IntDim.intrinsicDimension L Y k1 k2 estimator "vector" none mem' = .ok (.fin b) ∧ a / (1 + ε) ≤ b ∧ b ≤ a / (1 - ε) := by
  obtain ⟨h, hq1, -, -, hx0, -⟩ := C312_factor X Y η δ hη0 hη hδ hX q hq
  have e : ∀ (Z : Fin n → Fin d → ℝ) i j, IntDim.Spec.dist (Z i) (Z j) = Dist.euclideanDistance Z i j := fun Z i j => (euclid_eq Z i j).symm
  refine IntDim.C311_robust L X Y hd hd (fun i j hij => ?_) q hq1 (fun i j hij => ?_) T hT k1 k2 h1 h12 h2 hne ε hε hs estimator he mem mem'
  · by_contra hn
    have := hx0 i j hn
    rw [euclid_eq, hij] at this
    simp [Spec.vecNorm] at this
  · rw [e, e]
    exact ⟨(h i j hij).2, (h i j hij).1⟩

end

/-- Relative error of a number in the normal range of single precision. -/
theorem single_error {x y : ℝ} (h : Ieee.single.round x = .fin y) (hx : x = 0 ∨ 2 ^ (-126 : ℤ) ≤ |x|) : |y - x| ≤ 2 ^ (-24 : ℤ) * |x| := by
  have hyn : y = Ieee.single.nearest x := by
    unfold Ieee.round at h
    split_ifs at h
    injection h with h
    exact h.symm
  rw [hyn]
  rcases hx with rfl | hx
  · rw [Ieee.nearest_zero]
    simp
  refine (Ieee.abs_nearest_sub (K := ℝ) Ieee.single x).trans ?_
  have hx0 : 0 < |x| := lt_of_lt_of_le (zpow_pos two_pos _) hx
  have hl : (-126 : ℤ) ≤ Int.log 2 |x| := (Int.zpow_le_iff_le_log (b := 2) (by norm_num) hx0).1 (by push_cast; exact hx)
  have hs : Ieee.single.spacing x = Int.log 2 |x| - 23 := by
    unfold Ieee.spacing
    rw [max_eq_left (show Ieee.single.emin ≤ Int.log 2 |x| from hl)]
    rfl
  have hle := Int.zpow_log_le_self (b := 2) (r := |x|) (by norm_num) hx0
  push_cast at hle
  rw [hs, zpow_sub₀ two_ne_zero]
  have e : (2 : ℝ) ^ Int.log 2 |x| / 2 ^ (23 : ℤ) / 2 = 2 ^ (-24 : ℤ) * 2 ^ Int.log 2 |x| := by
    rw [zpow_neg]; norm_num; ring
  rw [e]
  exact mul_le_mul_of_nonneg_left hle (zpow_pos two_pos _).le

/-- **C312** (single precision): for features stored in single precision, `η` is `2^-24` times the largest norm. -/
theorem C312_single {n d : ℕ} (X Y : Fin n → Fin d → ℝ) (hY : ∀ i f, Ieee.single.round (X i f) = .fin (Y i f))
    (hr : ∀ i f, X i f = 0 ∨ 2 ^ (-126 : ℤ) ≤ |X i f|) (r : ℝ) (hX : ∀ i, Spec.vecNorm (X i) ≤ r) (i : Fin n) :
    Spec.vecNorm (fun f => Y i f - X i f) ≤ 2 ^ (-24 : ℤ) * r :=
  (Rounding.vecNorm_le (zpow_pos two_pos _).le fun f => single_error (hY i f) (hr i f)).trans
    (mul_le_mul_of_nonneg_left (hX i) (zpow_pos two_pos _).le)

/-! ### Instances -/

/-- `points3` with an error at the last point. -/
noncomputable def shifted3 (i : Fin 3) (_ : Fin 1) : ℝ := (![0, 1, 31 / 10] : Fin 3 → ℝ) i

theorem points3_euclid : Dist.euclideanDistance points3 = LS.line3 := by
  rw [points3_dist]
  funext i j
  exact euclid_eq points3 i j

theorem shifted3_error (i : Fin 3) : Spec.vecNorm (fun f => shifted3 i f - points3 i f) ≤ 1 / 10 := by
  unfold Spec.vecNorm
  rw [Fin.sum_univ_one, Real.sqrt_sq_eq_abs, abs_le]
  fin_cases i <;> norm_num [shifted3, points3, LS.line3]

theorem points3_apart (i j : Fin 3) (h : i ≠ j) : 1 ≤ Dist.euclideanDistance points3 i j := by
  rw [points3_euclid]
  fin_cases i <;> fin_cases j <;> first | exact absurd rfl h | norm_num [LS.line3]

example := C312_distances points3 shifted3 (1 / 10) shifted3_error

example := C312_factor points3 shifted3 (1 / 10) 1 (by norm_num) shifted3_error (by norm_num) points3_apart _ rfl

example (w w' : LS.World) := C312_local_scaling points3 shifted3 (1 / 10) 1 (by norm_num) shifted3_error (by norm_num) points3_apart _ rfl w w' (by norm_num) 1
  le_rfl none (by decide) 1 (-1) (Or.inr le_rfl) (Or.inl rfl)

example (w w' : LS.World) := C312_nicdm points3 shifted3 (1 / 10) 1 (by norm_num) shifted3_error (by norm_num) points3_apart _ rfl w w' (by norm_num) 1
  le_rfl none (by decide) 1 1

example (order order' : MPEmp.Order ℝ) := C312_mutual_proximity points3 shifted3 (1 / 10) 1 (by norm_num) shifted3_error (by norm_num) points3_apart _ rfl
  order order' false false 0 0

example (w w' : SNN.World ℝ) := C312_snn points3 shifted3 (1 / 10) 1 (by norm_num) shifted3_error (by norm_num) points3_apart _ rfl w w' 1 le_rfl
  (by norm_num) 1 1 _ (points3_euclid ▸ line3_radius)

example (o o' : ArgPart (XR ℝ)) (rnd rnd' : Hubness.Rnd) (sched sched' : Hubness.Schedule) := C312_hubness points3 shifted3 (1 / 10) 1 (by norm_num)
  shifted3_error (by norm_num) points3_apart _ rfl o o' rnd rnd' sched sched' false false 1 le_rfl (by norm_num) 1 4 (Or.inr le_rfl)
  (Or.inr (by norm_num)) true true _ (points3_euclid ▸ line3_radius)

example (srt srt' : Knn.ArgSort (XR ℝ)) (o o' : ArgPart (XR ℝ)) (rnd rnd' : Knn.Rnd) := C312_score points3 shifted3 (1 / 10) 1 (by norm_num)
  shifted3_error (by norm_num) points3_apart _ rfl srt srt' o o' rnd rnd' ![1, 1, 2] [1]
  (by intro k hk; rw [List.mem_singleton] at hk; omega) (fun _ => ![1, 1, 2])
  (by intro k hk i; rw [List.mem_singleton] at hk; subst hk; rw [points3_euclid]; exact line3_radius i) (by norm_num)

example := C312_index points3 shifted3 (1 / 10) 1 (by norm_num) shifted3_error (by norm_num) points3_apart _ rfl ![1, 1, 2]
  (points3_euclid ▸ ⟨_, line3_untied⟩)

/-- `line4` with a small error at the last point. -/
noncomputable def shifted4 (i : Fin 4) (_ : Fin 1) : ℝ := (![0, 1, 10, 100 + 1 / 1000] : Fin 4 → ℝ) i

example (L : IntDim.LexSort) := C312_dimension IntDim.line4 shifted4 (1 / 1000) 1 (by norm_num)
  (by
    intro i
    unfold Spec.vecNorm
    rw [Fin.sum_univ_one, Real.sqrt_sq_eq_abs, abs_le]
    fin_cases i <;> norm_num [shifted4, IntDim.line4])
  (by norm_num)
  (by
    intro i j h
    rw [euclid_eq]
    show 1 ≤ IntDim.Spec.dist (IntDim.line4 i) (IntDim.line4 j)
    rw [IntDim.line4_dist]
    fin_cases i <;> fin_cases j <;> first | exact absurd rfl h | (simp [IntDim.line4]; done) | (simp [IntDim.line4]; norm_num))
  _ rfl L one_ne_zero IntDim.line4T IntDim.line4_neighbours 3 3 (by norm_num) le_rfl (by norm_num) IntDim.line4_different (1 / 2) (by norm_num)
  (by
    intro i k hk hk'
    obtain rfl : k = 3 := le_antisymm hk' hk
    have h1 := IntDim.line4_sums i
    have h2 := Real.log_le_sub_one_of_pos (show (0 : ℝ) < 1 / (1 - 2 * (1 / 1000)) by norm_num)
    norm_num at h2 ⊢
    linarith) "mackay" (Or.inr rfl) 5000 5000

/-- Numbers which are not floats. -/
noncomputable def tenths3 (i : Fin 3) (_ : Fin 1) : ℝ := (![0, 1 / 10, 3 / 10] : Fin 3 → ℝ) i

example : ∃ Y : Fin 3 → Fin 1 → ℝ, (∀ i f, Ieee.single.round (tenths3 i f) = .fin (Y i f)) ∧
    ∀ i, Spec.vecNorm (fun f => Y i f - tenths3 i f) ≤ 2 ^ (-24 : ℤ) * (3 / 10) := by
  have hp : (2 : ℝ) ^ (-126 : ℤ) ≤ 1 / 10 := by
    have : (2 : ℝ) ^ (-126 : ℤ) ≤ 2 ^ (-4 : ℤ) := zpow_le_zpow_right₀ one_le_two (by norm_num)
    refine this.trans (by norm_num)
  have hv : ∀ i f, tenths3 i f = 0 ∨ (2 ^ (-126 : ℤ) ≤ tenths3 i f ∧ tenths3 i f ≤ 1) := by
    intro i f
    fin_cases i
    · exact Or.inl (by simp [tenths3])
    · refine Or.inr ⟨hp, ?_⟩
      norm_num [tenths3]
    · refine Or.inr ⟨hp.trans ?_, ?_⟩ <;> norm_num [tenths3]
  have hex : ∀ i f, ∃ y, Ieee.single.round (tenths3 i f) = .fin y := by
    intro i f
    rcases hv i f with h | ⟨h1, h2⟩
    · exact ⟨0, by rw [h]; exact MPPar.f32.zero⟩
    · obtain ⟨y, hy, -⟩ := MPPar.f32_error h1 h2
      exact ⟨y, hy⟩
  choose Y hY using hex
  refine ⟨Y, hY, C312_single tenths3 Y hY (fun i f => ?_) (3 / 10) fun i => ?_⟩
  · exact (hv i f).imp_right fun h => h.1.trans (le_abs_self _)
  · unfold Spec.vecNorm
    rw [Fin.sum_univ_one, Real.sqrt_sq_eq_abs, abs_le]
    fin_cases i <;> norm_num [tenths3]

end HubToolbox.Relations
