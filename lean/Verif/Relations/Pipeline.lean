import Verif.Relations.Robust

/-!
# From feature vectors to secondary distances in double precision

C299: `euclidean_distance` followed by `local_scaling` or `nicdm`, everything computed in double precision, against Local Scaling and NICDM of the exact
Euclidean distances: the rounding errors of the distances may change neighbours and radii, but the secondary distances stay accurate, and experiments
give the same results unless exact secondary distances nearly agree.
-/

set_option autoImplicit false

namespace HubToolbox.Relations

open Rounding Ieee

/-- What the errors of the distances amount to. -/
theorem factor_bounds {t : ℝ} (h0 : 0 ≤ t) (h : t ≤ 1 / 16) :
    1 ≤ 1 / (1 - t) ∧ 1 + t ≤ 1 / (1 - t) ∧ (1 / (1 - t)) ^ 4 - 1 ≤ 6 * t ∧ (1 / (1 - t)) ^ 3 ≤ 1 + 4 * t := by
  have h1 : 0 < 1 - t := by linarith
  have hb := one_add_mul_le_pow (a := -t) (by linarith)
  have e4 : 1 - 4 * t ≤ (1 - t) ^ 4 := by
    have := hb 4; push_cast at this; rw [← sub_eq_add_neg] at this; linarith
  have e3 : 1 - 3 * t ≤ (1 - t) ^ 3 := by
    have := hb 3; push_cast at this; rw [← sub_eq_add_neg] at this; linarith
  refine ⟨(le_div_iff₀ h1).2 (by linarith), (le_div_iff₀ h1).2 (by nlinarith), ?_, ?_⟩
  · rw [one_div_pow, sub_le_iff_le_add, div_le_iff₀ (by positivity)]
    calc (1 : ℝ) ≤ (6 * t + 1) * (1 - 4 * t) := by nlinarith
      _ ≤ (6 * t + 1) * (1 - t) ^ 4 := mul_le_mul_of_nonneg_left e4 (by linarith)
  · rw [one_div_pow, div_le_iff₀ (by positivity)]
    calc (1 : ℝ) ≤ (1 + 4 * t) * (1 - 3 * t) := by nlinarith
      _ ≤ (1 + 4 * t) * (1 - t) ^ 3 := mul_le_mul_of_nonneg_left e3 (by linarith)

/-- The computed distances. -/
theorem euclid_upTo (L : CosLib ℝ) (hL : L.Near) (h0 : L.sqrt (.fin 0) = .fin 0) {n d : ℕ} (hd : d ≤ 2 ^ 46) (X : Fin n → Fin d → ℝ)
    (hX : EucModerate X) (s : Fin n → Fin n → ℝ) (hs : s = fun i j => √(∑ f, (X i f - X j f) ^ 2))
    (hrange : ∀ i j, i ≠ j → 2 ^ (-199 : ℤ) ≤ s i j ∧ s i j ≤ 2 ^ (199 : ℤ)) :
    ∃ z : Fin n → Fin n → ℝ, (double.rounding ℝ).euclideanDistance L (fun i f => .fin (X i f)) = LS.toXR z ∧ (∀ i j, z i j = z j i) ∧
      Spec.UpTo (1 / (1 - 2 * (d + 2) * u)) s z ∧ ∀ i j, i ≠ j → 2 ^ (-200 : ℤ) ≤ z i j ∧ z i j ≤ 2 ^ (200 : ℤ) := by
  choose z hz he using fun i j => C244 L hL h0 hd X hX i j
  have ht := (pow_two_le hd).2
  have hu := u_pos
  have ht0 : 0 ≤ 2 * ((d : ℝ) + 2) * u := by positivity
  have hfb := factor_bounds ht0 ht
  have he' : ∀ i j, |z i j - s i j| ≤ 2 * ((d : ℝ) + 2) * u * s i j := fun i j => by rw [hs, u_eq]; exact he i j
  generalize 2 * ((d : ℝ) + 2) * u = t at *
  have h1 : 0 < 1 - t := by linarith
  refine ⟨z, funext fun i => funext fun j => hz i j, fun i j => ?_, fun i j h => ?_, fun i j h => ?_⟩
  · have := C244_symm (double.rounding ℝ) L (fun i f => .fin (X i f)) i j
    rw [hz, hz] at this
    exact XR.fin.inj this
  · have hp : 0 < s i j := lt_of_lt_of_le (by positivity) (hrange i j h).1
    have e := abs_le.1 (he' i j)
    constructor
    · rw [one_div_mul_eq_div, le_div_iff₀ h1]
      linarith [e.1]
    · have := mul_le_mul_of_nonneg_right hfb.2.1 hp.le
      linarith [e.2]
  · have hp : 0 < s i j := lt_of_lt_of_le (by positivity) (hrange i j h).1
    have e := abs_le.1 (he' i j)
    have r := hrange i j h
    have hts : t * s i j ≤ 1 / 16 * s i j := mul_le_mul_of_nonneg_right ht hp.le
    have p1 : (2 : ℝ) ^ (-200 : ℤ) = 2 ^ (-199 : ℤ) / 2 := by
      rw [show (-200 : ℤ) = -199 - 1 by norm_num, zpow_sub_one₀ (by norm_num)]; ring
    have p2 : (2 : ℝ) ^ (200 : ℤ) = 2 * 2 ^ (199 : ℤ) := by
      rw [show (200 : ℤ) = 1 + 199 by norm_num, zpow_add₀ (by norm_num), zpow_one]
    rw [p1, p2]
    generalize (2 : ℝ) ^ (-199 : ℤ) = A at *
    generalize (2 : ℝ) ^ (199 : ℤ) = B at *
    constructor
    · linarith [e.1, r.1]
    · linarith [e.2, r.2]

/-- Local Scaling in double precision of distances with a relative error of at most `t`. -/
theorem pipeline_ls (E : Lib) (hexp : E.ExpNear) (w w' : LS.World) {n : ℕ} (hn : 0 < n) {t : ℝ} (ht0 : 0 ≤ t) (ht : t ≤ 1 / 16)
    (s z : Fin n → Fin n → ℝ) (hup : Spec.UpTo (1 / (1 - t)) s z) (hss : ∀ i j, s i j = s j i) (hzs : ∀ i j, z i j = z j i)
    (hs0 : ∀ i j, i ≠ j → 0 < s i j) (hzr : ∀ i j, i ≠ j → 2 ^ (-200 : ℤ) ≤ z i j ∧ z i j ≤ 2 ^ (200 : ℤ)) (k : ℕ) (hk : 1 ≤ k)
    (test : Option (List ℤ)) (hcard : ∀ i, k ≤ ((Spec.training n test).erase i).card) (nJobs nJobs' : ℤ) (hj : nJobs = -1 ∨ 1 ≤ nJobs)
    (hj' : nJobs' = -1 ∨ 1 ≤ nJobs') (ε : ℝ) (hε : 2 ^ (-50 : ℤ) + 6 * t ≤ ε) :
    ∃ M M' : Fin n → Fin n → ℝ, LS.localScaling w (.mat false n n (LS.toXR s)) k "distance" test nJobs = .ok ⟨n, LS.toXR M⟩ ∧
      (double.rounding ℝ).localScaling E w' (.mat false n n (LS.toXR z)) k "distance" test nJobs' = .ok ⟨n, LS.toXR M'⟩ ∧
      (∀ i j, |M' i j - M i j| ≤ ε) ∧
      ((∀ i a b, a ≠ i → b ≠ i → a ≠ b → 2 * ε < |M i a - M i b|) → Spec.SameExperiments (LS.toXR M) (LS.toXR M')) := by
  have hfb := factor_bounds ht0 ht
  have hz0 : ∀ i j, i ≠ j → 0 < z i j := fun i j h => lt_of_lt_of_le (by positivity) (hzr i j h).1
  obtain ⟨M, Z, hM, hZ, hMZ, -⟩ := C298_local_scaling w w' hn s z _ hfb.1 hup hss hzs hs0 hz0 k hk test hcard nJobs nJobs' hj hj'
  obtain ⟨r, hr⟩ := LS.C28_radii_exist z k hk test hcard
  have hr0 : ∀ i, 0 < r i := fun i => by
    obtain ⟨j, hj, e⟩ := (hr i).attained
    rw [← e]; exact hz0 i j (Finset.ne_of_mem_erase hj).symm
  obtain ⟨M', hM', hd0, hdist⟩ := C210 E hexp w' hn z hzs (fun i j h => Or.inr (by rw [abs_of_pos (hz0 i j h)]; exact hzr i j h)) k hk test nJobs' hj' r hr hr0
  have hZe := ok_entries hZ (LS.C28_formula w' z hzs k hk test nJobs' hj' r hr hr0 hn)
  have hmain : ∀ i j, |M' i j - M i j| ≤ ε := by
    intro i j
    have b1 : |M' i j - Z i j| ≤ 2 ^ (-50 : ℤ) := by
      rw [hZe]
      split_ifs with h
      · rw [h, hd0, sub_zero, abs_zero]; positivity
      · exact hdist i j h
    have b2 := (hMZ i j).trans hfb.2.2.1
    have b3 := abs_sub_le (M' i j) (Z i j) (M i j)
    linarith
  refine ⟨M, M', hM, hM', hmain, fun hgap => gap_same fun i a b ha hb hab => ?_⟩
  have e1 := abs_le.1 (hmain i a)
  have e2 := abs_le.1 (hmain i b)
  have hg := hgap i a b ha hb hab
  have hp : 0 ≤ ε := (abs_nonneg _).trans (hmain i a)
  rcases lt_abs.1 hg with h1 | h1
  · exact Or.inr ⟨by linarith, by linarith [e1.1, e2.2]⟩
  · exact Or.inl ⟨by linarith, by linarith [e1.2, e2.1]⟩

/-- **C299** (Local Scaling). -/
theorem C299_local_scaling (L : CosLib ℝ) (hL : L.Near) (h0 : L.sqrt (.fin 0) = .fin 0) (E : Lib) (hexp : E.ExpNear) (w w' : LS.World) {n d : ℕ}
    (hn : 0 < n) (hd : d ≤ 2 ^ 46) (X : Fin n → Fin d → ℝ) (hX : EucModerate X) (s : Fin n → Fin n → ℝ)
    (hs : s = fun i j => √(∑ f, (X i f - X j f) ^ 2)) (hrange : ∀ i j, i ≠ j → 2 ^ (-199 : ℤ) ≤ s i j ∧ s i j ≤ 2 ^ (199 : ℤ)) (k : ℕ) (hk : 1 ≤ k)
    (test : Option (List ℤ)) (hcard : ∀ i, k ≤ ((Spec.training n test).erase i).card) (nJobs nJobs' : ℤ) (hj : nJobs = -1 ∨ 1 ≤ nJobs)
    (hj' : nJobs' = -1 ∨ 1 ≤ nJobs') :
    ∃ M M' : Fin n → Fin n → ℝ, LS.localScaling w (.mat false n n (LS.toXR s)) k "distance" test nJobs = .ok ⟨n, LS.toXR M⟩ ∧
      (double.rounding ℝ).localScaling E w' (.mat false n n ((double.rounding ℝ).euclideanDistance L (fun i f => .fin (X i f)))) k "distance" test nJobs' =
        .ok ⟨n, LS.toXR M'⟩ ∧
      (∀ i j, |M' i j - M i j| ≤ (d + 2) * 2 ^ (-49 : ℤ)) ∧
      ((∀ i a b, a ≠ i → b ≠ i → a ≠ b → (d + 2) * 2 ^ (-48 : ℤ) < |M i a - M i b|) → Spec.SameExperiments (LS.toXR M) (LS.toXR M')) := by
  obtain ⟨z, hz, hzs, hup, hzr⟩ := euclid_upTo L hL h0 hd X hX s hs hrange
  have ht := (pow_two_le hd).2
  have hu := u_pos
  have hs0 : ∀ i j, i ≠ j → 0 < s i j := fun i j h => lt_of_lt_of_le (by positivity) (hrange i j h).1
  have hss : ∀ i j, s i j = s j i := fun i j => by
    rw [hs]; beta_reduce
    congr 1
    exact Finset.sum_congr rfl fun f _ => by ring
  rw [hz]
  obtain ⟨M, M', hM, hM', h1, h2⟩ := pipeline_ls E hexp w w' hn (by positivity) ht s z hup hss hzs hs0 hzr k hk test hcard nJobs nJobs' hj hj'
    ((d + 2) * 2 ^ (-49 : ℤ)) (by
      have e1 : (2 : ℝ) ^ (-50 : ℤ) = 8 * u := by rw [u_eq]; norm_num
      have e2 : (2 : ℝ) ^ (-49 : ℤ) = 16 * u := by rw [u_eq]; norm_num
      rw [e1, e2]
      have : 0 ≤ (d : ℝ) * u := by positivity
      linarith)
  refine ⟨M, M', hM, hM', h1, fun hgap => h2 fun i a b ha hb hab => ?_⟩
  have e48 : ((d : ℝ) + 2) * 2 ^ (-48 : ℤ) = 2 * ((d + 2) * 2 ^ (-49 : ℤ)) := by norm_num; ring
  rw [← e48]
  exact hgap i a b ha hb hab

/-- Errors of two steps. -/
theorem two_errors {a b m z y : ℝ} (ha : 0 ≤ a) (ha' : a ≤ 1 / 4) (hb : 0 ≤ b) (hy : 0 < y) (hz : 0 < z) (h1 : |m - z| ≤ a * z) (h2 : z ≤ (1 + b) * y)
    (h3 : y ≤ (1 + b) * z) : |m - y| ≤ (a + 5 / 4 * b) * y := by
  have e := abs_le.1 h1
  have u1 : m ≤ (1 + a) * ((1 + b) * y) := by
    have := mul_le_mul_of_nonneg_left h2 (by linarith : 0 ≤ 1 + a)
    linarith [e.2]
  have l0 : (1 - b) * y ≤ z := by
    rcases le_total b 1 with hb1 | hb1
    · have := mul_le_mul_of_nonneg_left h3 (by linarith : 0 ≤ 1 - b)
      have : 0 ≤ b ^ 2 * z := by positivity
      nlinarith
    · have : (1 - b) * y ≤ 0 := mul_nonpos_of_nonpos_of_nonneg (by linarith) hy.le
      linarith
  have l1 : (1 - a) * ((1 - b) * y) ≤ m := by
    have := mul_le_mul_of_nonneg_left l0 (by linarith : 0 ≤ 1 - a)
    linarith [e.1]
  have p1 : 0 ≤ a * b * y := by positivity
  have p2 : a * b * y ≤ 1 / 4 * b * y := by
    have : 0 ≤ b * y := by positivity
    nlinarith
  rw [abs_le]
  constructor <;> nlinarith

/-- NICDM in double precision of distances with a relative error of at most `t`. -/
theorem pipeline_nicdm (E : Lib) (hE : E.Accurate) (w w' : LS.World) {n : ℕ} (hn0 : 0 < n) (hn : n ≤ 2 ^ 40) {t : ℝ} (ht0 : 0 ≤ t) (ht : t ≤ 1 / 16)
    (s z : Fin n → Fin n → ℝ) (hup : Spec.UpTo (1 / (1 - t)) s z) (hss : ∀ i j, s i j = s j i) (hzs : ∀ i j, z i j = z j i)
    (hs0 : ∀ i j, i ≠ j → 0 < s i j) (hzf : ∀ i j, i ≠ j → double.round (z i j) = .fin (z i j))
    (hzr : ∀ i j, i ≠ j → 2 ^ (-200 : ℤ) ≤ z i j ∧ z i j ≤ 2 ^ (200 : ℤ)) (k : ℕ) (hk : 1 ≤ k)
    (test : Option (List ℤ)) (hcard : ∀ i, k ≤ ((Spec.training n test).erase i).card) (nJobs nJobs' : ℤ) (ε : ℝ)
    (hε : ε = n * 2 ^ (-42 : ℤ) + 5 * t) :
    ∃ M M' : Fin n → Fin n → ℝ, LS.nicdm w (.mat false n n (LS.toXR s)) k "distance" test nJobs = .ok ⟨n, LS.toXR M⟩ ∧
      (double.rounding ℝ).nicdm E w' (.mat false n n (LS.toXR z)) k "distance" test nJobs' = .ok ⟨n, LS.toXR M'⟩ ∧
      (∀ i j, |M' i j - M i j| ≤ ε * M i j) ∧
      ((∀ i a b, a ≠ i → b ≠ i → a ≠ b → (1 + 5 * ε) * M i a < M i b ∨ (1 + 5 * ε) * M i b < M i a) →
        Spec.SameExperiments (LS.toXR M) (LS.toXR M')) := by
  have hfb := factor_bounds ht0 ht
  have hz0 : ∀ i j, i ≠ j → 0 < z i j := fun i j h => lt_of_lt_of_le (by positivity) (hzr i j h).1
  obtain ⟨M, Z, hM, hZ, hMZ, -⟩ := C298_nicdm w w' hn0 s z _ hfb.1 hup hss hzs hs0 hz0 k hk test hcard nJobs nJobs'
  choose N hN using fun i => LS.C32_nearest_exist (s i) ((Spec.training n test).erase i) k (hcard i)
  choose N' hN' using fun i => LS.C32_nearest_exist (z i) ((Spec.training n test).erase i) k (hcard i)
  have hpos : ∀ (z : Fin n → Fin n → ℝ), (∀ i j, i ≠ j → 0 < z i j) → ∀ (N : Fin n → Finset (Fin n)),
      (∀ i, Spec.IsNearest ((Spec.training n test).erase i) (z i) k (N i)) → ∀ i, 0 < Spec.meanOver (N i) (z i) := by
    intro z hz N hN i
    have hc : 0 < (N i).card := by rw [(hN i).card]; exact hk
    unfold Spec.meanOver
    exact div_pos (Finset.sum_pos (fun j hj => hz i j (Finset.ne_of_mem_erase ((hN i).sub hj)).symm) (Finset.card_pos.1 hc)) (by exact_mod_cast hc)
  have hr0 := hpos s hs0 N hN
  have hr0' := hpos z hz0 N' hN'
  obtain ⟨M', hM', hd0, hdist⟩ := C214 E hE w' hn0 hn z hzs hzf hzr k hk test nJobs' N' hN'
  have hZe := ok_entries hZ (LS.C32_formula w' z hzs k hk test nJobs' N' hN' hr0' hn0)
  have hMe := ok_entries hM (LS.C32_formula w s hss k hk test nJobs N hN hr0 hn0)
  have hM0 : ∀ i j, i ≠ j → 0 < M i j := fun i j h => by
    rw [hMe, if_neg h]; exact nicdm_pos (LS.geometricMean_pos _ hr0) (hs0 i j h) (hr0 i) (hr0 j)
  have hZ0 : ∀ i j, i ≠ j → 0 < Z i j := fun i j h => by
    rw [hZe, if_neg h]; exact nicdm_pos (LS.geometricMean_pos _ hr0') (hz0 i j h) (hr0' i) (hr0' j)
  have ha : (n : ℝ) * 2 ^ (-42 : ℤ) ≤ 1 / 4 := by
    have : (n : ℝ) ≤ 2 ^ 40 := by exact_mod_cast hn
    have := mul_le_mul_of_nonneg_right this (by positivity : (0 : ℝ) ≤ 2 ^ (-42 : ℤ))
    refine this.trans_eq ?_
    norm_num
  have ha0 : (0 : ℝ) ≤ n * 2 ^ (-42 : ℤ) := by positivity
  have hε' : ε = n * 2 ^ (-42 : ℤ) + 5 / 4 * (4 * t) := by rw [hε]; ring
  have hmain : ∀ i j, |M' i j - M i j| ≤ ε * M i j := by
    intro i j
    rcases eq_or_ne i j with h | h
    · rw [h, hd0, hMe, if_pos rfl, sub_zero, abs_zero, mul_zero]
    · have b1 : |M' i j - Z i j| ≤ n * 2 ^ (-42 : ℤ) * Z i j := by
        rw [hZe, if_neg h]; exact hdist i j h
      have hq := hfb.2.2.2
      rw [hε']
      exact two_errors ha0 ha (by positivity) (hM0 i j h) (hZ0 i j h) b1
        ((hMZ i j h).2.trans (mul_le_mul_of_nonneg_right hq (hM0 i j h).le)) ((hMZ i j h).1.trans (mul_le_mul_of_nonneg_right hq (hZ0 i j h).le))
  refine ⟨M, M', hM, hM', hmain, fun hgap => gap_same fun i a b ha' hb' hab => ?_⟩
  have hε0 : 0 ≤ ε := by rw [hε']; positivity
  have hε1 : ε ≤ 9 / 16 := by rw [hε']; linarith
  have key : ∀ a b, a ≠ i → b ≠ i → (1 + 5 * ε) * M i a < M i b → M i a < M i b ∧ M' i a < M' i b := fun a b ha hb hg => by
    have p := hM0 i a ha.symm
    have e1 := (abs_le.1 (hmain i a)).2
    have e2 := (abs_le.1 (hmain i b)).1
    have h1 : M i a ≤ (1 + 5 * ε) * M i a := le_mul_of_one_le_left p.le (by linarith)
    refine ⟨h1.trans_lt hg, ?_⟩
    have h2 := mul_lt_mul_of_pos_left hg (by linarith : 0 < 1 - ε)
    have h3 : (1 + ε) * M i a ≤ (1 - ε) * ((1 + 5 * ε) * M i a) := by
      rw [← mul_assoc]
      exact mul_le_mul_of_nonneg_right (by nlinarith) p.le
    linarith
  exact (hgap i a b ha' hb' hab).imp (key a b ha' hb') (key b a hb' ha')

/-- **C299** (NICDM). -/
theorem C299_nicdm (L : CosLib ℝ) (hL : L.Near) (h0 : L.sqrt (.fin 0) = .fin 0) (hfl : ∀ a z, L.sqrt a = .fin z → double.round z = .fin z) (E : Lib)
    (hE : E.Accurate) (w w' : LS.World) {n d : ℕ} (hn0 : 0 < n) (hn : n ≤ 2 ^ 40) (hd : d ≤ 2 ^ 46) (X : Fin n → Fin d → ℝ) (hX : EucModerate X)
    (s : Fin n → Fin n → ℝ) (hs : s = fun i j => √(∑ f, (X i f - X j f) ^ 2))
    (hrange : ∀ i j, i ≠ j → 2 ^ (-199 : ℤ) ≤ s i j ∧ s i j ≤ 2 ^ (199 : ℤ)) (k : ℕ) (hk : 1 ≤ k)
    (test : Option (List ℤ)) (hcard : ∀ i, k ≤ ((Spec.training n test).erase i).card) (nJobs nJobs' : ℤ) (ε : ℝ)
    (hε : ε = n * 2 ^ (-42 : ℤ) + 10 * (d + 2) * 2 ^ (-53 : ℤ)) :
    ∃ M M' : Fin n → Fin n → ℝ, LS.nicdm w (.mat false n n (LS.toXR s)) k "distance" test nJobs = .ok ⟨n, LS.toXR M⟩ ∧
      (double.rounding ℝ).nicdm E w' (.mat false n n ((double.rounding ℝ).euclideanDistance L (fun i f => .fin (X i f)))) k "distance" test nJobs' =
        .ok ⟨n, LS.toXR M'⟩ ∧
      (∀ i j, |M' i j - M i j| ≤ ε * M i j) ∧
      ((∀ i a b, a ≠ i → b ≠ i → a ≠ b → (1 + 5 * ε) * M i a < M i b ∨ (1 + 5 * ε) * M i b < M i a) →
        Spec.SameExperiments (LS.toXR M) (LS.toXR M')) := by
  obtain ⟨z, hz, hzs, hup, hzr⟩ := euclid_upTo L hL h0 hd X hX s hs hrange
  have ht := (pow_two_le hd).2
  have hu := u_pos
  have hs0 : ∀ i j, i ≠ j → 0 < s i j := fun i j h => lt_of_lt_of_le (by positivity) (hrange i j h).1
  have hss : ∀ i j, s i j = s j i := fun i j => by
    rw [hs]; beta_reduce
    congr 1
    exact Finset.sum_congr rfl fun f _ => by ring
  have hzf : ∀ i j, i ≠ j → double.round (z i j) = .fin (z i j) := by
    intro i j h
    have e : (double.rounding ℝ).euclideanDistance L (fun i f => .fin (X i f)) i j = .fin (z i j) := by rw [hz]; rfl
    unfold euclideanDistance at e
    rcases lt_or_gt_of_ne h with h | h
    · rw [if_pos h] at e; exact hfl _ _ e
    · rw [if_neg h.not_gt, if_pos h] at e; exact hfl _ _ e
  rw [hz]
  exact pipeline_nicdm E hE w w' hn0 hn (by positivity) ht s z hup hss hzs hs0 hzf hzr k hk test hcard nJobs nJobs' ε (by rw [hε, u_eq]; ring)

/-! ### Instances -/

/-- Three points on a line, one feature. -/
noncomputable def points3 (i : Fin 3) (_ : Fin 1) : ℝ := LS.line3 0 i

theorem points3_dist : LS.line3 = fun i j => √(∑ f, (points3 i f - points3 j f) ^ 2) := by
  funext i j
  rw [Fin.sum_univ_one, Real.sqrt_sq_eq_abs]
  fin_cases i <;> fin_cases j <;> norm_num [points3, LS.line3]

theorem points3_moderate : EucModerate points3 where
  float i f := by simpa [points3] using line3_float 0 i 1 (by norm_num)
  within i j f := by
    have h0 : (2 : ℝ) ^ (-199 : ℤ) ≤ 1 := zpow_le_one_of_nonpos₀ one_le_two (by norm_num)
    have h1 : (8 : ℝ) ≤ 2 ^ (199 : ℤ) := by
      have : (2 : ℝ) ^ (3 : ℤ) ≤ 2 ^ (199 : ℤ) := zpow_le_zpow_right₀ one_le_two (by norm_num)
      refine le_trans ?_ this
      norm_num
    fin_cases i <;> fin_cases j <;>
      first
      | (refine Or.inl ?_; norm_num [points3, LS.line3]; done)
      | (refine Or.inr ⟨h0.trans ?_, le_trans ?_ h1⟩ <;> norm_num [points3, LS.line3])

theorem line3_range (i j : Fin 3) (h : i ≠ j) : 2 ^ (-199 : ℤ) ≤ LS.line3 i j ∧ LS.line3 i j ≤ 2 ^ (199 : ℤ) := by
  have h0 : (2 : ℝ) ^ (-199 : ℤ) ≤ 1 := zpow_le_one_of_nonpos₀ one_le_two (by norm_num)
  have h1 : (8 : ℝ) ≤ 2 ^ (199 : ℤ) := by
    have : (2 : ℝ) ^ (3 : ℤ) ≤ 2 ^ (199 : ℤ) := zpow_le_zpow_right₀ one_le_two (by norm_num)
    refine le_trans ?_ this
    norm_num
  fin_cases i <;> fin_cases j <;> first | exact absurd rfl h | (refine ⟨h0.trans ?_, le_trans ?_ h1⟩ <;> norm_num [LS.line3])

theorem rounded_sqrt_float (a : XR ℝ) (z : ℝ) (h : CosLib.rounded.sqrt a = .fin z) : double.round z = .fin z := by
  have := (double.rounding ℝ).float_up (XR.sqrt a)
  rw [show (double.rounding ℝ).up (XR.sqrt a) = .fin z from h] at this
  exact this

example (nJobs : ℤ) (hj : nJobs = -1 ∨ 1 ≤ nJobs) := C299_local_scaling CosLib.rounded CosLib.rounded_near CosLib.rounded_sqrt_zero Lib.rounded
  Lib.rounded_expNear LS.stdWorld LS.stdWorld (by norm_num) (by norm_num) points3 points3_moderate LS.line3 points3_dist line3_range 1 le_rfl none
  training3_card nJobs nJobs hj hj

/-- Experiments on the points give the results of exact arithmetic. -/
example (nJobs : ℤ) : ∃ M M' : Fin 3 → Fin 3 → ℝ, LS.nicdm LS.stdWorld (.mat false 3 3 (LS.toXR LS.line3)) 1 "distance" none nJobs = .ok ⟨3, LS.toXR M⟩ ∧
    (double.rounding ℝ).nicdm Lib.rounded LS.stdWorld (.mat false 3 3 ((double.rounding ℝ).euclideanDistance CosLib.rounded (fun i f => .fin (points3 i f))))
      1 "distance" none nJobs = .ok ⟨3, LS.toXR M'⟩ ∧ Spec.SameExperiments (LS.toXR M) (LS.toXR M') := by
  obtain ⟨M, M', h1, h2, -, h3⟩ := C299_nicdm CosLib.rounded CosLib.rounded_near CosLib.rounded_sqrt_zero rounded_sqrt_float Lib.rounded
    Lib.rounded_accurate LS.stdWorld LS.stdWorld (n := 3) (by norm_num) (by norm_num) (by norm_num) points3 points3_moderate LS.line3 points3_dist
    line3_range 1 le_rfl none training3_card nJobs nJobs _ rfl
  refine ⟨M, M', h1, h2, h3 fun i a b ha hb hab => ?_⟩
  have hM := ok_entries h1 (LS.C32_formula LS.stdWorld LS.line3 LS.line3_symm 1 le_rfl none nJobs _ LS.line3_nearest LS.line3_mean (by norm_num))
  have hg := LS.geometricMean_pos _ LS.line3_mean
  rw [hM i a, hM i b, if_neg ha.symm, if_neg hb.symm]
  have p : ∀ j, j ≠ i → _ := fun j hj => nicdm_pos hg (line3_off_pos i j (Ne.symm hj)) (LS.line3_mean i) (LS.line3_mean j)
  have hq : (1 + 5 * ((3 : ℕ) * 2 ^ (-42 : ℤ) + 10 * ((1 : ℕ) + 2) * 2 ^ (-53 : ℤ)) : ℝ) ≤ 5 / 4 := by norm_num
  exact (line3_quarter i a b ha hb hab _ hg).imp (fun h => (mul_le_mul_of_nonneg_right hq (p a ha).le).trans_lt h)
    (fun h => (mul_le_mul_of_nonneg_right hq (p b hb).le).trans_lt h)

end HubToolbox.Relations
