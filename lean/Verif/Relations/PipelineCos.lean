import Verif.Relations.Pipeline
import Verif.Relations.StableCos
import Verif.Relations.StableMp

/-!
# Secondary distances of cosine distances in double precision

C300: `cosine_distance` followed by `local_scaling` or `nicdm`, everything in double precision, is accurate unless vectors have nearly the same
direction. C301: methods which count do not see the rounding errors of cosine distances.
-/

set_option autoImplicit false

namespace HubToolbox.Relations

open HubToolbox Ieee Rounding

theorem cosAngle_comm {d : ℕ} (x y : Fin d → ℝ) : Spec.cosAngle x y = Spec.cosAngle y x := by
  unfold Spec.cosAngle
  rw [mul_comm (Spec.vecNorm x)]
  congr 1
  exact Finset.sum_congr rfl fun f _ => mul_comm _ _

/-- The computed distances. -/
theorem cosine_entries (L : CosLib ℝ) (hL : L.Near) {n d : ℕ} (hd : d ≤ 2 ^ 46) (X : Fin n → Fin d → ℝ) (hX : CosModerate X) :
    ∃ z : Fin n → Fin n → ℝ, (double.rounding ℝ).cosineDistance L (fun i f => .fin (X i f)) = LS.toXR z ∧ (∀ i j, z i j = z j i) ∧
      (∀ i j, double.round (z i j) = .fin (z i j)) ∧ ∀ i j, |z i j - (1 - Spec.cosAngle (X i) (X j))| ≤ 4 * (d + 2) * u := by
  choose z hz _ he using fun i j => C209 L hL hd X hX i j
  refine ⟨z, funext fun i => funext fun j => hz i j, fun i j => ?_, fun i j => ?_, fun i j => by rw [u_eq]; exact he i j⟩
  · have := cosineDistance_symm (double.rounding ℝ) L (fun i f => .fin (X i f)) i j
    rw [hz, hz] at this
    exact XR.fin.inj this
  · have h : (double.rounding ℝ).Float ((double.rounding ℝ).cosineDistance L (fun i f => .fin (X i f)) i j) := (double.rounding ℝ).float_up _
    rw [hz] at h
    exact h

/-- The computed distances of vectors that do not have nearly the same direction. -/
theorem cosine_upTo (L : CosLib ℝ) (hL : L.Near) {n d : ℕ} (hd : d ≤ 2 ^ 46) (X : Fin n → Fin d → ℝ) (hX : CosModerate X) (s : Fin n → Fin n → ℝ)
    (hs : s = fun i j => 1 - Spec.cosAngle (X i) (X j)) (δ : ℝ) (hδ : 64 * (d + 2) * u ≤ δ) (hsδ : ∀ i j, i ≠ j → δ ≤ s i j) :
    ∃ z : Fin n → Fin n → ℝ, (double.rounding ℝ).cosineDistance L (fun i f => .fin (X i f)) = LS.toXR z ∧ (∀ i j, z i j = z j i) ∧
      (∀ i j, double.round (z i j) = .fin (z i j)) ∧ Spec.UpTo (1 / (1 - 4 * (d + 2) * u / δ)) s z ∧
      ∀ i j, i ≠ j → 2 ^ (-200 : ℤ) ≤ z i j ∧ z i j ≤ 2 ^ (200 : ℤ) := by
  obtain ⟨z, hz, hzs, hzf, he⟩ := cosine_entries L hL hd X hX
  have hu := u_pos
  have hδ0 : 0 < δ := lt_of_lt_of_le (by positivity) hδ
  have he' : ∀ i j, |z i j - s i j| ≤ 4 * ((d : ℝ) + 2) * u := fun i j => by rw [hs]; exact he i j
  have ht : 4 * ((d : ℝ) + 2) * u / δ ≤ 1 / 16 := by rw [div_le_iff₀ hδ0]; linarith
  have ht0 : 0 ≤ 4 * ((d : ℝ) + 2) * u / δ := by positivity
  have hfb := factor_bounds ht0 ht
  have hrel : ∀ i j, i ≠ j → |z i j - s i j| ≤ 4 * ((d : ℝ) + 2) * u / δ * s i j := fun i j h => by
    refine (he' i j).trans ?_
    rw [div_mul_eq_mul_div, le_div_iff₀ hδ0]
    exact mul_le_mul_of_nonneg_left (hsδ i j h) (by positivity)
  have hu200 : (2 : ℝ) ^ (-200 : ℤ) ≤ u := by rw [u_eq]; exact zpow_le_zpow_right₀ one_le_two (by norm_num)
  have h200 : (4 : ℝ) ≤ 2 ^ (200 : ℤ) := by
    have : (2 : ℝ) ^ (2 : ℤ) ≤ 2 ^ (200 : ℤ) := zpow_le_zpow_right₀ one_le_two (by norm_num)
    refine le_trans ?_ this
    norm_num
  have hδu : 128 * u ≤ δ := by
    have : 0 ≤ (d : ℝ) * u := by positivity
    linarith
  generalize 4 * ((d : ℝ) + 2) * u / δ = t at *
  have h1 : 0 < 1 - t := by linarith
  refine ⟨z, hz, hzs, hzf, fun i j h => ?_, fun i j h => ?_⟩
  · have hp : 0 < s i j := hδ0.trans_le (hsδ i j h)
    have e := abs_le.1 (hrel i j h)
    constructor
    · rw [one_div_mul_eq_div, le_div_iff₀ h1]
      linarith [e.1]
    · have := mul_le_mul_of_nonneg_right hfb.2.1 hp.le
      linarith [e.2]
  · have hp : 0 < s i j := hδ0.trans_le (hsδ i j h)
    have e := abs_le.1 (hrel i j h)
    have hts : t * s i j ≤ 1 / 16 * s i j := mul_le_mul_of_nonneg_right ht hp.le
    have hs2 : s i j ≤ 2 := by
      rw [hs]
      have := (abs_le.1 (Dist.cosine_abs_le (X i) (X j))).1
      show 1 - _ ≤ (2 : ℝ)
      linarith
    constructor
    · linarith [e.1, hsδ i j h]
    · linarith [e.2]

/-- The exact distances. -/
theorem cosine_exact {n d : ℕ} (X : Fin n → Fin d → ℝ) (hX : CosModerate X) (s : Fin n → Fin n → ℝ)
    (hs : s = fun i j => 1 - Spec.cosAngle (X i) (X j)) : Dist.cosineDistance X = LS.toXR s := by
  funext i j
  obtain ⟨v, hv, rfl, -⟩ := Dist.C143_value_partial X i j (hX.nonzero i) (hX.nonzero j)
  rw [hs]
  exact hv

/-- **C300** (Local Scaling). -/
theorem C300_local_scaling (L : CosLib ℝ) (hL : L.Near) (E : Lib) (hexp : E.ExpNear) (w w' : LS.World) {n d : ℕ}
    (hn : 0 < n) (hd : d ≤ 2 ^ 46) (X : Fin n → Fin d → ℝ) (hX : CosModerate X) (δ : ℝ) (hδ : (d + 2) * 2 ^ (-47 : ℤ) ≤ δ)
    (hsδ : ∀ i j, i ≠ j → δ ≤ 1 - Spec.cosAngle (X i) (X j)) (k : ℕ) (hk : 1 ≤ k)
    (test : Option (List ℤ)) (hcard : ∀ i, k ≤ ((Spec.training n test).erase i).card) (nJobs nJobs' : ℤ) (hj : nJobs = -1 ∨ 1 ≤ nJobs)
    (hj' : nJobs' = -1 ∨ 1 ≤ nJobs') (ε : ℝ) (hε : ε = (1 + 3 * (d + 2) / δ) * 2 ^ (-50 : ℤ)) :
    ∃ M M' : Fin n → Fin n → ℝ, LS.localScaling w (.mat false n n (Dist.cosineDistance X)) k "distance" test nJobs = .ok ⟨n, LS.toXR M⟩ ∧
      (double.rounding ℝ).localScaling E w' (.mat false n n ((double.rounding ℝ).cosineDistance L (fun i f => .fin (X i f)))) k "distance" test nJobs' =
        .ok ⟨n, LS.toXR M'⟩ ∧
      (∀ i j, |M' i j - M i j| ≤ ε) ∧
      ((∀ i a b, a ≠ i → b ≠ i → a ≠ b → 2 * ε < |M i a - M i b|) → Spec.SameExperiments (LS.toXR M) (LS.toXR M')) := by
  have hu := u_pos
  have e47 : (2 : ℝ) ^ (-47 : ℤ) = 64 * u := by rw [u_eq]; norm_num
  have e50 : (2 : ℝ) ^ (-50 : ℤ) = 8 * u := by rw [u_eq]; norm_num
  rw [e47] at hδ
  have hδ0 : 0 < δ := lt_of_lt_of_le (by positivity) hδ
  obtain ⟨z, hz, hzs, hzf, hup, hzr⟩ := cosine_upTo L hL hd X hX _ rfl δ (by linarith) hsδ
  rw [hz, cosine_exact X hX _ rfl]
  refine pipeline_ls E hexp w w' hn (by positivity) (by rw [div_le_iff₀ hδ0]; linarith) _ z hup (fun i j => by beta_reduce; rw [cosAngle_comm]) hzs
    (fun i j h => hδ0.trans_le (hsδ i j h)) hzr k hk test hcard nJobs nJobs' hj hj' ε (le_of_eq ?_)
  rw [hε, e50]
  field_simp
  ring

/-- **C300** (NICDM). -/
theorem C300_nicdm (L : CosLib ℝ) (hL : L.Near) (E : Lib) (hE : E.Accurate) (w w' : LS.World) {n d : ℕ}
    (hn0 : 0 < n) (hn : n ≤ 2 ^ 40) (hd : d ≤ 2 ^ 46) (X : Fin n → Fin d → ℝ) (hX : CosModerate X) (δ : ℝ) (hδ : (d + 2) * 2 ^ (-47 : ℤ) ≤ δ)
    (hsδ : ∀ i j, i ≠ j → δ ≤ 1 - Spec.cosAngle (X i) (X j)) (k : ℕ) (hk : 1 ≤ k)
    (test : Option (List ℤ)) (hcard : ∀ i, k ≤ ((Spec.training n test).erase i).card) (nJobs nJobs' : ℤ) (ε : ℝ)
    (hε : ε = n * 2 ^ (-42 : ℤ) + 20 * (d + 2) / δ * 2 ^ (-53 : ℤ)) :
    ∃ M M' : Fin n → Fin n → ℝ, LS.nicdm w (.mat false n n (Dist.cosineDistance X)) k "distance" test nJobs = .ok ⟨n, LS.toXR M⟩ ∧
      (double.rounding ℝ).nicdm E w' (.mat false n n ((double.rounding ℝ).cosineDistance L (fun i f => .fin (X i f)))) k "distance" test nJobs' =
        .ok ⟨n, LS.toXR M'⟩ ∧
      (∀ i j, |M' i j - M i j| ≤ ε * M i j) ∧
      ((∀ i a b, a ≠ i → b ≠ i → a ≠ b → (1 + 5 * ε) * M i a < M i b ∨ (1 + 5 * ε) * M i b < M i a) →
        Spec.SameExperiments (LS.toXR M) (LS.toXR M')) := by
  have hu := u_pos
  have e47 : (2 : ℝ) ^ (-47 : ℤ) = 64 * u := by rw [u_eq]; norm_num
  rw [e47] at hδ
  have hδ0 : 0 < δ := lt_of_lt_of_le (by positivity) hδ
  obtain ⟨z, hz, hzs, hzf, hup, hzr⟩ := cosine_upTo L hL hd X hX _ rfl δ (by linarith) hsδ
  rw [hz, cosine_exact X hX _ rfl]
  refine pipeline_nicdm E hE w w' hn0 hn (by positivity) (by rw [div_le_iff₀ hδ0]; linarith) _ z hup (fun i j => by beta_reduce; rw [cosAngle_comm]) hzs
    (fun i j h => hδ0.trans_le (hsδ i j h)) (fun i j _ => hzf i j) hzr k hk test hcard nJobs nJobs' ε ?_
  rw [hε, u_eq]
  ring

section
variable (L : CosLib ℝ) (hL : L.Near) {n d : ℕ} (hd : d ≤ 2 ^ 46) (X : Fin n → Fin d → ℝ) (hX : CosModerate X)
  (hgap : ∀ i a b, a ≠ i → b ≠ i → a ≠ b → (d + 2) * 2 ^ (-50 : ℤ) < |Spec.cosAngle (X i) (X a) - Spec.cosAngle (X i) (X b)|)
include hL hd hX hgap

theorem cosine_order : ∃ z : Fin n → Fin n → ℝ, (double.rounding ℝ).cosineDistance L (fun i f => .fin (X i f)) = LS.toXR z ∧
    (∀ i j, z i j = z j i) ∧ ∀ i a b, a ≠ i → b ≠ i → a ≠ b →
      (1 - Spec.cosAngle (X i) (X a) < 1 - Spec.cosAngle (X i) (X b) ∧ z i a < z i b) ∨
      (1 - Spec.cosAngle (X i) (X b) < 1 - Spec.cosAngle (X i) (X a) ∧ z i b < z i a) := by
  obtain ⟨z, hz, hzs, -, he⟩ := cosine_entries L hL hd X hX
  refine ⟨z, hz, hzs, fun i a b ha hb hab => ?_⟩
  have hu := u_pos
  have g := hgap i a b ha hb hab
  rw [show (2 : ℝ) ^ (-50 : ℤ) = 8 * u by rw [u_eq]; norm_num] at g
  have ea := abs_le.1 (he i a)
  have eb := abs_le.1 (he i b)
  have hp : 0 ≤ ((d : ℝ) + 2) * u := by positivity
  rcases lt_abs.1 g with g | g
  · exact Or.inl ⟨by linarith, by linarith [ea.2, eb.1]⟩
  · exact Or.inr ⟨by linarith, by linarith [ea.1, eb.2]⟩

/-- **C301** (Mutual Proximity): if the cosines of the angles of each vector with the others differ by more than `(d + 2) · 2⁻⁵⁰`, then
`mutual_proximity_empiric` in a format `F` (and stored in a format `G`) of the cosine distances computed in double precision is that of the exact
distances, and orders pairs like Mutual Proximity of the exact distances. -/
theorem C301 (F G : Ieee) (hs : Ieee.Small F G n) (sp : Bool) (test : Option MPEmp.TestArg) :
    (F.rounding ℝ).mpEmpiric (G.rounding ℝ) (.mat sp n n ((double.rounding ℝ).cosineDistance L (fun i f => .fin (X i f)))) "distance" test =
      (F.rounding ℝ).mpEmpiric (G.rounding ℝ) (.mat sp n n (Dist.cosineDistance X)) "distance" test ∧
    ∀ M, (F.rounding ℝ).mpEmpiric (G.rounding ℝ) (.mat sp n n ((double.rounding ℝ).cosineDistance L (fun i f => .fin (X i f)))) "distance" test
        = .ok ⟨n, M⟩ →
      ∀ i j a b, M i j < M a b ↔ (Spec.mpDistance (fun i j => .fin (1 - Spec.cosAngle (X i) (X j))) i j : ℝ) <
        Spec.mpDistance (fun i j => .fin (1 - Spec.cosAngle (X i) (X j))) a b := by
  obtain ⟨z, hz, hsym, hg⟩ := cosine_order L hL hd X hX hgap
  have hx : ∀ i j, 1 - Spec.cosAngle (X i) (X j) = 1 - Spec.cosAngle (X j) (X i) := fun i j => by rw [cosAngle_comm]
  have hm : ∀ i j, (Spec.mpDistance (LS.toXR z) i j : ℝ) = Spec.mpDistance (LS.toXR fun i j => 1 - Spec.cosAngle (X i) (X j)) i j :=
    fun i j => (mpDistance_rows hx hsym (gap_order hg) i j).symm
  have hn : n ≤ 2 ^ F.p := hs.left.le.trans (Nat.pow_le_pow_right (by norm_num) (by omega))
  have e := mpEmpiric_of_mpDistance (F.rounding ℝ) (G.rounding ℝ) (Ieee.round_natCast F hn hs.range) (LS.toXR z)
    (LS.toXR fun i j => 1 - Spec.cosAngle (X i) (X j)) (fun i j => congrArg XR.fin (hsym i j)) (fun i j => congrArg XR.fin (hx i j)) hm sp test
  rw [hz, cosine_exact X hX _ rfl]
  refine ⟨e, fun M hM i j a b => ?_⟩
  have hsx : Spec.Symmetric (LS.toXR z) := fun i j => congrArg XR.fin (hsym i j)
  rw [(C182_order F G hs _ sp "distance" test M hM hsx i j a b).1 rfl, hm, hm]
  rfl

/-- **C301** (shared neighbours): under the same condition the values of `shared_nearest_neighbors` are ordered by the number of common neighbours in
terms of the exact angles. -/
theorem C301_snn (F G : Ieee) (w : SNN.World ℝ) (k : ℕ) (hk : k < n) (hF : Ieee.Small F F k) (hG : Ieee.Small F G k) (nJobs : ℤ) :
    ∃ (N : Fin n → Finset (Fin n)) (M : Fin n → Fin n → XR ℝ),
      (∀ i, (N i).card = k ∧ i ∉ N i ∧ ∀ a ∈ N i, ∀ b ∉ N i, b ≠ i → Spec.cosAngle (X i) (X b) < Spec.cosAngle (X i) (X a)) ∧
      (F.rounding ℝ).sharedNearestNeighbors (G.rounding ℝ) w
        (.mat false n n ((double.rounding ℝ).cosineDistance L (fun i f => .fin (X i f)))) k "distance" nJobs = .ok ⟨n, M⟩ ∧
      ∀ i j a b, i ≠ j → a ≠ b → (M i j < M a b ↔ (N a ∩ N b).card < (N i ∩ N j).card) := by
  obtain ⟨z, hz, hsym, hg⟩ := cosine_order L hL hd X hX hgap
  obtain ⟨N, M, hN, hM, ho⟩ := C183_order F G w (LS.toXR z) k hk hF hG "distance" (Or.inl rfl) nJobs z (fun i j _ => rfl)
  have hk0 : (0 : ℝ) < k := by exact_mod_cast hF.pos
  refine ⟨N, M, fun i => ?_, by rw [hz]; exact hM, fun i j a b hij hab => ?_⟩
  · have hi : i ∉ N i := fun hc => Finset.notMem_erase i Finset.univ ((hN i).sub hc)
    refine ⟨(hN i).card, hi, fun a ha b hb hbi => ?_⟩
    have hai : a ≠ i := fun e => hi (e ▸ ha)
    have hab : a ≠ b := fun e => hb (e ▸ ha)
    have hle : z i a ≤ z i b := by
      have := (hN i).best a ha b (Finset.mem_erase.2 ⟨hbi, Finset.mem_univ b⟩) hb
      unfold Spec.nearer at this
      rwa [if_neg (by decide)] at this
    rcases hg i a b hai hbi hab with ⟨h1, -⟩ | ⟨-, h2⟩
    · linarith
    · exact absurd hle h2.not_ge
  · rw [ho, if_neg hij, if_neg hab]
    unfold Spec.snn Spec.commonFraction
    rw [if_neg (by decide), if_neg (by decide), sub_lt_sub_iff_left, div_lt_div_iff_of_pos_right hk0, Nat.cast_lt]

end

/-! ### Instances -/

/-- Three vectors in the plane whose lengths and inner products are integers. -/
noncomputable def right3 : Fin 3 → Fin 2 → ℝ := ![![1, 0], ![3, 4], ![-4, 3]]

/-- Their cosine distances. -/
noncomputable def rightDist : Fin 3 → Fin 3 → ℝ := ![![0, 2 / 5, 9 / 5], ![2 / 5, 0, 1], ![9 / 5, 1, 0]]

theorem right3_dist (i j : Fin 3) : 1 - Spec.cosAngle (right3 i) (right3 j) = rightDist i j := by
  have h25 : √(25 : ℝ) = 5 := by rw [show (25 : ℝ) = 5 ^ 2 by norm_num, Real.sqrt_sq (by norm_num)]
  have hn : ∀ i, Spec.vecNorm (right3 i) = ![1, 5, 5] i := by
    intro i
    fin_cases i <;> simp [Spec.vecNorm, right3, Fin.sum_univ_two] <;> norm_num [h25]
  unfold Spec.cosAngle
  rw [hn, hn, Fin.sum_univ_two]
  fin_cases i <;> fin_cases j <;> norm_num [right3, rightDist]

theorem right3_moderate : CosModerate right3 where
  float i f := by
    have h : ∃ z : ℤ, |z| ≤ 2 ^ 53 ∧ right3 i f = z := by
      fin_cases i <;> fin_cases f
      · exact ⟨1, by norm_num, by norm_num [right3]⟩
      · exact ⟨0, by norm_num, by norm_num [right3]⟩
      · exact ⟨3, by norm_num, by norm_num [right3]⟩
      · exact ⟨4, by norm_num, by norm_num [right3]⟩
      · exact ⟨-4, by norm_num, by norm_num [right3]⟩
      · exact ⟨3, by norm_num, by norm_num [right3]⟩
    obtain ⟨z, hz, e⟩ := h
    rw [e]
    have := Ieee.round_grid (K := ℝ) Ieee.double (z := z) (t := 0) (by simpa [Ieee.double] using hz) (by norm_num [Ieee.double]) (by norm_num [Ieee.double])
    simpa only [zpow_zero, mul_one] using this
  within i f := by
    have h0 : (2 : ℝ) ^ (-200 : ℤ) ≤ 1 := zpow_le_one_of_nonpos₀ one_le_two (by norm_num)
    have h1 : (8 : ℝ) ≤ 2 ^ (200 : ℤ) := by
      have : (2 : ℝ) ^ (3 : ℤ) ≤ 2 ^ (200 : ℤ) := zpow_le_zpow_right₀ one_le_two (by norm_num)
      refine le_trans ?_ this
      norm_num
    fin_cases i <;> fin_cases f <;>
      first
      | (refine Or.inl ?_; norm_num [right3]; done)
      | (refine Or.inr ⟨h0.trans ?_, le_trans ?_ h1⟩ <;> norm_num [right3])
  nonzero i h := by
    have := congrFun h 0
    fin_cases i <;> norm_num [right3] at this

theorem right3_apart (i j : Fin 3) (h : i ≠ j) : 2 / 5 ≤ 1 - Spec.cosAngle (right3 i) (right3 j) := by
  rw [right3_dist]
  fin_cases i <;> fin_cases j <;> first | exact absurd rfl h | norm_num [rightDist]

theorem right3_gap (i a b : Fin 3) (ha : a ≠ i) (hb : b ≠ i) (hab : a ≠ b) :
    (((2 : ℕ) : ℝ) + 2) * 2 ^ (-50 : ℤ) < |Spec.cosAngle (right3 i) (right3 a) - Spec.cosAngle (right3 i) (right3 b)| := by
  have e : ∀ j, Spec.cosAngle (right3 i) (right3 j) = 1 - rightDist i j := fun j => by rw [← right3_dist]; ring
  rw [e, e]
  fin_cases i <;> fin_cases a <;> fin_cases b <;> first
    | exact absurd rfl ha | exact absurd rfl hb | exact absurd rfl hab
    | (rw [lt_abs]; norm_num [rightDist])

example (nJobs : ℤ) (hj : nJobs = -1 ∨ 1 ≤ nJobs) := C300_local_scaling CosLib.rounded CosLib.rounded_near Lib.rounded Lib.rounded_expNear
  LS.stdWorld LS.stdWorld (by norm_num) (by norm_num) right3 right3_moderate (2 / 5) (by norm_num) right3_apart 1 le_rfl none training3_card
  nJobs nJobs hj hj _ rfl

example (test : Option MPEmp.TestArg) := C301 CosLib.rounded CosLib.rounded_near (by norm_num) right3 right3_moderate right3_gap .double .single
  ⟨by decide, by decide, by decide, by decide⟩ false test

example (w : SNN.World ℝ) (nJobs : ℤ) := C301_snn CosLib.rounded CosLib.rounded_near (by norm_num) right3 right3_moderate right3_gap .double .double
  w 1 (by norm_num) ⟨by decide, by decide, by decide, by decide⟩ ⟨by decide, by decide, by decide, by decide⟩ nJobs

theorem right3_nearest (i : Fin 3) : Spec.IsNearest ((Spec.training 3 none).erase i) (fun j => 1 - Spec.cosAngle (right3 i) (right3 j)) 1
    ((![{1}, {0}, {1}] : Fin 3 → Finset (Fin 3)) i) := by
  have h := LS.line3_nearest i
  refine ⟨h.sub, h.card, fun a ha b hb hnb => ?_⟩
  beta_reduce
  rw [right3_dist, right3_dist]
  have hbi := Finset.ne_of_mem_erase hb
  fin_cases i <;> fin_cases a <;> first
    | exact absurd ha (by decide)
    | (fin_cases b <;> first | exact absurd rfl hbi | exact absurd (by decide) hnb | norm_num [rightDist])

theorem right3_mean (i : Fin 3) : Spec.meanOver ((![{1}, {0}, {1}] : Fin 3 → Finset (Fin 3)) i) (fun j => 1 - Spec.cosAngle (right3 i) (right3 j)) =
    (![2 / 5, 2 / 5, 1] : Fin 3 → ℝ) i := by
  simp only [right3_dist]
  fin_cases i <;> norm_num [Spec.meanOver, rightDist]

/-- NICDM of the vectors: no two secondary distances of a vector are closer than a factor of `5/4`. -/
theorem right3_quarter (i a b : Fin 3) (ha : a ≠ i) (hb : b ≠ i) (hab : a ≠ b) (g : ℝ) (hg : 0 < g) :
    let S : Fin 3 → Fin 3 → ℝ := fun i j => Spec.nicdm g (rightDist i j) ((![2 / 5, 2 / 5, 1] : Fin 3 → ℝ) i) ((![2 / 5, 2 / 5, 1] : Fin 3 → ℝ) j)
    5 / 4 * S i a < S i b ∨ 5 / 4 * S i b < S i a := by
  intro S
  obtain ⟨c, hc⟩ : ∃ c, c = √(2 / 5 : ℝ) := ⟨_, rfl⟩
  have c0 : 0 < c := by rw [hc]; exact Real.sqrt_pos.2 (by norm_num)
  have c1 : c < 7 / 10 := by rw [hc, Real.sqrt_lt' (by norm_num)]; norm_num
  have hcc : √(2 / 5 * (2 / 5) : ℝ) = 2 / 5 := Real.sqrt_mul_self (by norm_num)
  have e01 : S 0 1 = g := by
    show g * (2 / 5) / √(2 / 5 * (2 / 5)) = g
    rw [hcc]; field_simp
  have e10 : S 1 0 = g := e01
  have e02 : S 0 2 = g * (9 / 5) / c := by
    show g * (9 / 5) / √(2 / 5 * 1) = _
    rw [mul_one, hc]
  have e20 : S 2 0 = g * (9 / 5) / c := by
    show g * (9 / 5) / √(1 * (2 / 5)) = _
    rw [one_mul, hc]
  have e12 : S 1 2 = g / c := by
    show g * 1 / √(2 / 5 * 1) = _
    rw [mul_one, mul_one, hc]
  have e21 : S 2 1 = g / c := by
    show g * 1 / √(1 * (2 / 5)) = _
    rw [mul_one, one_mul, hc]
  have k1 : 5 / 4 * g < g / c := by rw [lt_div_iff₀ c0]; nlinarith
  have k2 : 5 / 4 * (g / c) < g * (9 / 5) / c := by rw [← mul_div_assoc, div_lt_div_iff_of_pos_right c0]; linarith
  have k3 : 5 / 4 * g < g * (9 / 5) / c := by
    have : 0 < g / c := by positivity
    linarith
  fin_cases i <;> fin_cases a <;> first
    | exact absurd rfl ha
    | (fin_cases b <;> first
        | exact absurd rfl hb
        | exact absurd rfl hab
        | (refine Or.inl ?_; simp only [Fin.zero_eta, Fin.mk_one, Fin.reduceFinMk, e01, e10, e02, e20, e12, e21]; first | exact k1 | exact k2 | exact k3)
        | (refine Or.inr ?_; simp only [Fin.zero_eta, Fin.mk_one, Fin.reduceFinMk, e01, e10, e02, e20, e12, e21]; first | exact k1 | exact k2 | exact k3))

/-- Experiments on these vectors give the results of exact arithmetic. -/
example (nJobs : ℤ) : ∃ M M' : Fin 3 → Fin 3 → ℝ,
    LS.nicdm LS.stdWorld (.mat false 3 3 (Dist.cosineDistance right3)) 1 "distance" none nJobs = .ok ⟨3, LS.toXR M⟩ ∧
    (double.rounding ℝ).nicdm Lib.rounded LS.stdWorld (.mat false 3 3 ((double.rounding ℝ).cosineDistance CosLib.rounded (fun i f => .fin (right3 i f))))
      1 "distance" none nJobs = .ok ⟨3, LS.toXR M'⟩ ∧ Spec.SameExperiments (LS.toXR M) (LS.toXR M') := by
  obtain ⟨M, M', h1, h2, -, h3⟩ := C300_nicdm CosLib.rounded CosLib.rounded_near Lib.rounded Lib.rounded_accurate LS.stdWorld LS.stdWorld (n := 3)
    (by norm_num) (by norm_num) (by norm_num) right3 right3_moderate (2 / 5) (by norm_num) right3_apart 1 le_rfl none training3_card nJobs nJobs _ rfl
  refine ⟨M, M', h1, h2, h3 fun i a b ha hb hab => ?_⟩
  rw [cosine_exact right3 right3_moderate _ rfl] at h1
  have hpos : ∀ i : Fin 3, 0 < (![2 / 5, 2 / 5, 1] : Fin 3 → ℝ) i := by intro i; fin_cases i <;> norm_num
  have hpos' : ∀ i, 0 < Spec.meanOver ((![{1}, {0}, {1}] : Fin 3 → Finset (Fin 3)) i) (fun j => 1 - Spec.cosAngle (right3 i) (right3 j)) :=
    fun i => by rw [right3_mean]; exact hpos i
  have hM := ok_entries h1 (LS.C32_formula LS.stdWorld _ (fun i j => by beta_reduce; rw [cosAngle_comm]) 1 le_rfl none nJobs _ right3_nearest hpos'
    (by norm_num))
  have hg := LS.geometricMean_pos _ hpos'
  rw [hM i a, hM i b, if_neg ha.symm, if_neg hb.symm]
  simp only [right3_mean] at hg ⊢
  simp only [right3_dist]
  have p : ∀ j, j ≠ i → _ := fun j hj => nicdm_pos (d := rightDist i j) hg
    (by rw [← right3_dist]; exact lt_of_lt_of_le (by norm_num) (right3_apart i j (Ne.symm hj))) (hpos i) (hpos j)
  have hq : (1 + 5 * ((3 : ℕ) * 2 ^ (-42 : ℤ) + 20 * ((2 : ℕ) + 2) / (2 / 5) * 2 ^ (-53 : ℤ)) : ℝ) ≤ 5 / 4 := by norm_num
  exact (right3_quarter i a b ha hb hab _ hg).imp (fun h => (mul_le_mul_of_nonneg_right hq (p a ha).le).trans_lt h)
    (fun h => (mul_le_mul_of_nonneg_right hq (p b hb).le).trans_lt h)

end HubToolbox.Relations
