import Verif.Relations.FeatureErrors
import Verif.Rounding.AtkinsonProps

/-!
# Data stored in single precision, evaluated in double precision

C314: feature vectors `X` stored as `Y` in single precision. `euclidean_distance(Y)` computed in double precision agrees with the exact distances of `X` up to a
factor `q = δ / (δ - 2^-23 r) · 1 / (1 - 2 (d + 2) 2^-53)`, where `r` bounds the norms and `δ` the distances of different vectors from below. Nothing else
is assumed of the stored numbers: overflow, underflow and loss of digits of the differences do not occur in double precision.
-/

set_option autoImplicit false

namespace HubToolbox.Relations

open HubToolbox Ieee Rounding

/-- Finite numbers of single precision are multiples of `2^-149` with at most 24 digits, below `2^128`. -/
theorem single_rep {x y : ℝ} (h : single.round x = .fin y) :
    ∃ m t : ℤ, y = m * 2 ^ t ∧ |m| ≤ 2 ^ 24 ∧ -149 ≤ t ∧ |y| < 2 ^ (128 : ℤ) := by
  have hy : y = single.nearest x ∧ |y| < 2 ^ (128 : ℤ) := by
    unfold Ieee.round at h
    split_ifs at h with h1 h2
    injection h with h
    refine ⟨h.symm, ?_⟩
    rw [not_le] at h1 h2
    rw [← h, abs_lt]
    exact ⟨h2, h1⟩
  refine ⟨even (x / 2 ^ single.spacing x), single.spacing x, hy.1, ?_, ?_, hy.2⟩
  · have hp : (0 : ℝ) < 2 ^ single.spacing x := zpow_pos two_pos _
    have key : ∀ x : ℝ, single.nearest x ≤ 2 ^ (single.spacing x + 24) := fun x => Ieee.nearest_le_top (K := ℝ) single
    have e : single.spacing (-x) = single.spacing x := by
      unfold Ieee.spacing
      rw [abs_neg]
    have h1 := key x
    have h2 := key (-x)
    rw [Ieee.nearest_neg, e] at h2
    have h3 : |single.nearest x| ≤ 2 ^ (single.spacing x + 24) := abs_le.2 ⟨by linarith, h1⟩
    unfold Ieee.nearest at h3
    rw [abs_mul, abs_of_pos hp, zpow_add₀ two_ne_zero, mul_comm] at h3
    have h4 := le_of_mul_le_mul_left h3 hp
    have h5 : ((|even (x / 2 ^ single.spacing x)| : ℤ) : ℝ) ≤ ((2 ^ 24 : ℤ) : ℝ) := by
      push_cast
      exact h4.trans (by norm_num)
    exact_mod_cast h5
  · unfold Ieee.spacing
    have : single.emin ≤ max (Int.log 2 |x|) single.emin := le_max_right _ _
    rw [show single.emin = -126 from rfl] at *
    rw [show single.p = 24 from rfl]
    push_cast
    omega

/-- Numbers of single precision are numbers of double precision. -/
theorem single_double {x y : ℝ} (h : single.round x = .fin y) : double.round y = .fin y := by
  obtain ⟨m, t, rfl, hm, ht, hy⟩ := single_rep h
  by_cases h0 : m = 0
  · subst h0
    simp only [Int.cast_zero, zero_mul]
    exact (double.rounding ℝ).zero
  have h1 : (1 : ℝ) ≤ |(m : ℝ)| := by exact_mod_cast Int.one_le_abs h0
  have hp : (0 : ℝ) < 2 ^ t := zpow_pos two_pos _
  have h2 : (2 : ℝ) ^ t < 2 ^ (128 : ℤ) := by
    rw [abs_mul, abs_of_pos hp] at hy
    nlinarith
  have h3 : t < 128 := (zpow_lt_zpow_iff_right₀ one_lt_two).1 h2
  exact round_grid' m t (hm.trans (by norm_num)) (by omega) (by omega)

/-- All numbers of single precision are multiples of `2^-149`. -/
theorem single_multiple {x y : ℝ} (h : single.round x = .fin y) : ∃ z : ℤ, y = z * 2 ^ (-149 : ℤ) := by
  obtain ⟨m, t, rfl, -, ht, -⟩ := single_rep h
  obtain ⟨k, hk⟩ := Int.eq_ofNat_of_zero_le (by omega : 0 ≤ t + 149)
  refine ⟨m * 2 ^ k, ?_⟩
  have : t = k + -149 := by omega
  rw [this, zpow_add₀ two_ne_zero]
  push_cast
  rw [zpow_natCast]
  ring

/-- Differences are zero or of moderate size. -/
theorem single_sub {a b x y : ℝ} (ha : single.round a = .fin x) (hb : single.round b = .fin y) :
    x - y = 0 ∨ (2 ^ (-149 : ℤ) ≤ |x - y| ∧ |x - y| ≤ 2 ^ (129 : ℤ)) := by
  obtain ⟨z, hz⟩ := single_multiple ha
  obtain ⟨w, hw⟩ := single_multiple hb
  obtain ⟨-, -, -, -, -, hx⟩ := single_rep ha
  obtain ⟨-, -, -, -, -, hy⟩ := single_rep hb
  by_cases h : z = w
  · left
    rw [hz, hw, h, sub_self]
  right
  constructor
  · have e : x - y = ((z - w : ℤ) : ℝ) * 2 ^ (-149 : ℤ) := by
      rw [hz, hw]
      push_cast
      ring
    have h1 : (1 : ℝ) ≤ |((z - w : ℤ) : ℝ)| := by exact_mod_cast Int.one_le_abs (sub_ne_zero.2 h)
    rw [e, abs_mul, abs_of_pos (zpow_pos (two_pos (α := ℝ)) (-149))]
    exact le_mul_of_one_le_left (zpow_pos two_pos _).le h1
  · have e : (2 : ℝ) ^ (129 : ℤ) = 2 ^ (128 : ℤ) + 2 ^ (128 : ℤ) := by
      rw [show (129 : ℤ) = 128 + 1 by norm_num, zpow_add₀ two_ne_zero]
      ring
    rw [e]
    exact (abs_sub _ _).trans (add_le_add hx.le hy.le)

section
variable {n d : ℕ} (X Y : Fin n → Fin d → ℝ) (hY : ∀ i f, single.round (X i f) = .fin (Y i f))
include hY

theorem single_moderate : EucModerate Y where
  float i f := single_double (hY i f)
  within i j f := by
    refine (single_sub (hY i f) (hY j f)).imp_right fun h => ⟨le_trans ?_ h.1, h.2.trans ?_⟩
    · exact zpow_le_zpow_right₀ one_le_two (by norm_num)
    · exact zpow_le_zpow_right₀ one_le_two (by norm_num)

theorem single_range (hd : d ≤ 2 ^ 46) (i j : Fin n) (h0 : 0 < √(∑ f, (Y i f - Y j f) ^ 2)) :
    2 ^ (-199 : ℤ) ≤ √(∑ f, (Y i f - Y j f) ^ 2) ∧ √(∑ f, (Y i f - Y j f) ^ 2) ≤ 2 ^ (199 : ℤ) := by
  constructor
  · have hex : ∃ f, Y i f - Y j f ≠ 0 := by
      by_contra hc
      push Not at hc
      simp [hc] at h0
    obtain ⟨f, hf⟩ := hex
    have h1 := ((single_sub (hY i f) (hY j f)).resolve_left hf).1
    refine le_trans (zpow_le_zpow_right₀ one_le_two (by norm_num : (-199 : ℤ) ≤ -149)) (h1.trans ?_)
    rw [← Real.sqrt_sq_eq_abs]
    exact Real.sqrt_le_sqrt (Finset.single_le_sum (f := fun f => (Y i f - Y j f) ^ 2) (fun f _ => sq_nonneg _) (Finset.mem_univ f))
  · rw [Real.sqrt_le_left (zpow_pos two_pos _).le]
    have h1 : ∀ f, (Y i f - Y j f) ^ 2 ≤ ((2 : ℝ) ^ (129 : ℤ)) ^ 2 := by
      intro f
      rw [← sq_abs]
      refine pow_le_pow_left₀ (abs_nonneg _) ?_ 2
      rcases single_sub (hY i f) (hY j f) with h | h
      · rw [h, abs_zero]
        exact (zpow_pos two_pos _).le
      · exact h.2
    have h2 : ∑ f, (Y i f - Y j f) ^ 2 ≤ d * ((2 : ℝ) ^ (129 : ℤ)) ^ 2 := by
      have := Finset.sum_le_card_nsmul Finset.univ (fun f => (Y i f - Y j f) ^ 2) _ fun f _ => h1 f
      simpa using this
    have hd' : (d : ℝ) ≤ 2 ^ 46 := by exact_mod_cast hd
    refine h2.trans ((mul_le_mul_of_nonneg_right hd' (by positivity)).trans ?_)
    rw [← zpow_natCast, ← zpow_natCast, ← zpow_natCast, ← zpow_mul, ← zpow_mul, ← zpow_add₀ two_ne_zero]
    exact zpow_le_zpow_right₀ one_le_two (by norm_num)

end

section
variable (L : CosLib ℝ) (hL : L.Near) (h0 : L.sqrt (.fin 0) = .fin 0) {n d : ℕ} (hd : d ≤ 2 ^ 46) (X Y : Fin n → Fin d → ℝ)
  (hY : ∀ i f, single.round (X i f) = .fin (Y i f)) (hX : ∀ i f, X i f = 0 ∨ 2 ^ (-126 : ℤ) ≤ |X i f|)
  (r δ : ℝ) (hr0 : 0 ≤ r) (hr : ∀ i, Spec.vecNorm (X i) ≤ r) (hδ : 2 ^ (-23 : ℤ) * r < δ)
  (s : Fin n → Fin n → ℝ) (hs : s = Dist.euclideanDistance X) (hsδ : ∀ i j, i ≠ j → δ ≤ s i j)
  (q : ℝ) (hq : q = δ / (δ - 2 ^ (-23 : ℤ) * r) * (1 / (1 - 2 * (d + 2) * 2 ^ (-53 : ℤ))))
include hL h0 hd hY hX hr0 hr hδ hs hsδ hq

/-- **C314** (distances). -/
theorem C314_distances : ∃ z : Fin n → Fin n → ℝ, (double.rounding ℝ).euclideanDistance L (fun i f => .fin (Y i f)) = LS.toXR z ∧
    (∀ i j, z i j = z j i) ∧ Spec.UpTo q s z ∧ 1 ≤ q ∧ (∀ i j, s i j = s j i) ∧ ∀ i j, i ≠ j → 0 < s i j := by
  subst hs
  have e23 : (2 : ℝ) ^ (-23 : ℤ) * r = 2 * (2 ^ (-24 : ℤ) * r) := by
    rw [show (-23 : ℤ) = 1 + -24 by norm_num, zpow_add₀ two_ne_zero]
    ring
  obtain ⟨h1, hq1, hx, -, hx0, hy0⟩ := C312_factor X Y (2 ^ (-24 : ℤ) * r) δ (mul_nonneg (zpow_pos two_pos _).le hr0) (C312_single X Y hY hX r hr)
    (by rw [← e23]; exact hδ) hsδ _ rfl
  obtain ⟨z, hz, hzs, h2, hq2, -, -⟩ := euclid_measured L hL h0 hd Y (single_moderate X Y hY) _ rfl
    (fun i j hij => single_range X Y hY hd i j (by
      have := hy0 i j hij
      rwa [euclid_eq] at this)) _ rfl
  refine ⟨z, hz, hzs, fun i j hij => ?_, ?_, hx, hx0⟩
  · obtain ⟨a1, a2⟩ := h1 i j hij
    obtain ⟨b1, b2⟩ := h2 i j hij
    have e : Dist.euclideanDistance Y i j = √(∑ f, (Y i f - Y j f) ^ 2) := euclid_eq Y i j
    beta_reduce at b1 b2
    rw [← e] at b1 b2
    rw [hq, e23]
    generalize δ / (δ - 2 * (2 ^ (-24 : ℤ) * r)) = q1 at *
    generalize 1 / (1 - 2 * ((d : ℝ) + 2) * 2 ^ (-53 : ℤ)) = q2 at *
    constructor
    · refine a1.trans ?_
      rw [mul_assoc]
      exact mul_le_mul_of_nonneg_left b1 (by linarith)
    · refine b2.trans ?_
      rw [mul_comm q1, mul_assoc]
      exact mul_le_mul_of_nonneg_left a2 (by linarith)
  · rw [hq, e23]
    nlinarith

/-- **C314** (hubness). -/
theorem C314_hubness (o o' : ArgPart (XR ℝ)) (rnd rnd' : Hubness.Rnd) (sched sched' : Hubness.Schedule) (sparse sparse' : Bool) (k : ℕ) (h1 : 1 ≤ k)
    (hk : k < n) (nJobs nJobs' : ℤ) (hj : nJobs = -1 ∨ 1 ≤ nJobs) (hj' : nJobs' = -1 ∨ 1 ≤ nJobs') (shuffle shuffle' : Bool) (t : Fin n → ℝ)
    (ht : ∀ i, Spec.IsKthSmallest (Finset.univ.erase i) (s i) k (t i)) :
    ∃ res res' : Hubness.Res n, Hubness.hubnessMat o rnd sched sparse (LS.toXR s) k "distance" nJobs false shuffle = .ok res ∧
      Hubness.hubnessMat o' rnd' sched' sparse' ((double.rounding ℝ).euclideanDistance L (fun i f => .fin (Y i f))) k "distance" nJobs' false shuffle' = .ok res' ∧
      res.Nk.length = n ∧ res'.Nk.length = n ∧ ∀ (j : Fin n) (a b : ℕ), res.Nk[j.val]? = some a → res'.Nk[j.val]? = some b → |(b : ℝ) - a| ≤
        ((Finset.univ.filter fun i => i ≠ j ∧ k < (Spec.candidates q s i (t i)).card ∧ t i ≤ q ^ 2 * s i j ∧ s i j ≤ q ^ 2 * t i).card : ℝ) := by
  obtain ⟨z, hz, -, hup, hq1, -, hs0⟩ := C314_distances L hL h0 hd X Y hY hX r δ hr0 hr hδ s hs hsδ q hq
  rw [hz]
  convert C306 o o' rnd rnd' sched sched' sparse sparse' s z q hq1 hup hs0 k h1 hk nJobs nJobs' hj hj' shuffle shuffle' t ht

open Classical in
/-- **C314** (k-NN classification). -/
theorem C314_score (srt srt' : Knn.ArgSort (XR ℝ)) (o o' : ArgPart (XR ℝ)) (rnd rnd' : Knn.Rnd) (lab : Fin n → ℤ) (ks : List ℤ)
    (hks : ∀ k ∈ ks, 1 ≤ k ∧ k < n) (t : ℤ → Fin n → ℝ) (ht : ∀ k ∈ ks, ∀ i, Spec.IsKthSmallest (Finset.univ.erase i) (s i) k.toNat (t k i)) (hn : 0 < n) :
    ∃ res res' : Knn.Res ℝ n, Knn.score srt o rnd (.mat false n n (LS.toXR s)) (.vec n lab) (.list ks) "distance" none = .ok ⟨n, res⟩ ∧
      Knn.score srt' o' rnd' (.mat false n n ((double.rounding ℝ).euclideanDistance L (fun i f => .fin (Y i f)))) (.vec n lab) (.list ks) "distance" none =
        .ok ⟨n, res'⟩ ∧
      ∀ j (hj : j < ks.length), ∃ c c', res.perK[j]? = some c ∧ res'.perK[j]? = some c' ∧
        (∀ i, Spec.ClearVote q s lab ks[j].toNat (t ks[j] i) i → c'.corr i = c.corr i) ∧
        |c'.acc - c.acc| ≤ ((Finset.univ.filter fun i => ¬ Spec.ClearVote q s lab ks[j].toNat (t ks[j] i) i).card : ℝ) / n := by
  obtain ⟨z, hz, -, hup, hq1, -, hs0⟩ := C314_distances L hL h0 hd X Y hY hX r δ hr0 hr hδ s hs hsδ q hq
  rw [hz]
  exact C307 srt srt' o o' rnd rnd' s z q hq1 hup hs0 lab ks hks t ht hn

/-- **C314** (Goodman-Kruskal index). -/
theorem C314_index (cls : Fin n → ℤ) (hT : (Spec.untiedQuads s cls).Nonempty) :
    ∃ g g' : ℝ, GK.index (.mat false n n (LS.toXR s)) (.vec n cls) "distance" = .ok g ∧
      GK.index (.mat false n n ((double.rounding ℝ).euclideanDistance L (fun i f => .fin (Y i f)))) (.vec n cls) "distance" = .ok g' ∧
      |g' - g| ≤ 2 * (Spec.doubtfulQuads q s cls).card / (Spec.untiedQuads s cls).card := by
  obtain ⟨z, hz, hzs, hup, hq1, hss, hs0⟩ := C314_distances L hL h0 hd X Y hY hX r δ hr0 hr hδ s hs hsδ q hq
  rw [hz]
  exact C308 s z q hq1 hup hss hzs hs0 cls hT

open Classical in
/-- **C314** (Mutual Proximity). -/
theorem C314_mutual_proximity (order order' : MPEmp.Order ℝ) (sp sp' : Bool) (minNnz minNnz' : ℤ) :
    ∃ M M' : Fin n → Fin n → ℝ, MPEmp.full order (.obj (.mat sp n n (LS.toXR s))) "distance" none minNnz = .ok (.dense n M) ∧
      MPEmp.full order' (.obj (.mat sp' n n ((double.rounding ℝ).euclideanDistance L (fun i f => .fin (Y i f))))) "distance" none minNnz' =
        .ok (.dense n M') ∧
      ∀ i j, |M' i j - M i j| ≤
        ((Finset.univ.filter fun a => a ≠ i ∧ a ≠ j ∧ (Spec.doubtful q s i j a ∨ Spec.doubtful q s j i a)).card : ℝ) / n := by
  obtain ⟨z, hz, hzs, hup, hq1, hss, hs0⟩ := C314_distances L hL h0 hd X Y hY hX r δ hr0 hr hδ s hs hsδ q hq
  rw [hz]
  exact C304 order order' s z q hq1 hup hss hzs hs0 sp sp' minNnz minNnz'

end

/-! ### Instances

0, 0.1 and 0.3: the last two are no numbers of single precision. -/

theorem tenths3_normal (i : Fin 3) (f : Fin 1) : tenths3 i f = 0 ∨ (2 ^ (-126 : ℤ) ≤ tenths3 i f ∧ tenths3 i f ≤ 1) := by
  have hp : (2 : ℝ) ^ (-126 : ℤ) ≤ 1 / 10 := by
    have : (2 : ℝ) ^ (-126 : ℤ) ≤ 2 ^ (-4 : ℤ) := zpow_le_zpow_right₀ one_le_two (by norm_num)
    refine this.trans (by norm_num)
  fin_cases i
  · exact Or.inl (by simp [tenths3])
  · refine Or.inr ⟨hp, ?_⟩
    norm_num [tenths3]
  · refine Or.inr ⟨hp.trans ?_, ?_⟩ <;> norm_num [tenths3]

theorem tenths3_stored : ∃ Y : Fin 3 → Fin 1 → ℝ, ∀ i f, single.round (tenths3 i f) = .fin (Y i f) := by
  have hex : ∀ i f, ∃ y, single.round (tenths3 i f) = .fin y := by
    intro i f
    rcases tenths3_normal i f with h | ⟨h1, h2⟩
    · exact ⟨0, by rw [h]; exact MPPar.f32.zero⟩
    · obtain ⟨y, hy, -⟩ := MPPar.f32_error h1 h2
      exact ⟨y, hy⟩
  choose Y hY using hex
  exact ⟨Y, hY⟩

theorem tenths3_norm (i : Fin 3) : Spec.vecNorm (tenths3 i) ≤ 3 / 10 := by
  unfold Spec.vecNorm
  rw [Fin.sum_univ_one, Real.sqrt_sq_eq_abs, abs_le]
  fin_cases i <;> norm_num [tenths3]

theorem tenths3_euclid : (fun i j => LS.line3 i j / 10 : Fin 3 → Fin 3 → ℝ) = Dist.euclideanDistance tenths3 := by
  funext i j
  rw [euclid_eq]
  unfold Spec.vecNorm
  rw [Fin.sum_univ_one, Real.sqrt_sq_eq_abs]
  fin_cases i <;> fin_cases j <;> norm_num [tenths3, LS.line3]

theorem tenths3_apart (i j : Fin 3) (h : i ≠ j) : 1 / 10 ≤ (LS.line3 i j : ℝ) / 10 := by
  fin_cases i <;> fin_cases j <;> first | exact absurd rfl h | norm_num [LS.line3]

theorem tenths3_radius (i : Fin 3) : Spec.IsKthSmallest (Finset.univ.erase i) (fun j => LS.line3 i j / 10) 1 ((![1 / 10, 1 / 10, 2 / 10] : Fin 3 → ℝ) i) := by
  refine LS.kthSmallest_one ((![1, 0, 1] : Fin 3 → Fin 3) i) (by fin_cases i <;> decide) (by fin_cases i <;> norm_num [LS.line3]) fun l hl => ?_
  have := Finset.ne_of_mem_erase hl
  fin_cases i <;> fin_cases l <;> first | exact absurd rfl this | norm_num [LS.line3]

theorem tenths3_untied : ((0, 1), (0, 2)) ∈ Spec.untiedQuads (fun i j => LS.line3 i j / 10 : Fin 3 → Fin 3 → ℝ) ![1, 1, 2] := by
  refine Finset.mem_filter.2 ⟨Finset.mem_univ _, by decide, rfl, by decide, by decide, ?_⟩
  show (1 : ℝ) / 10 ≠ 3 / 10
  norm_num

section
variable (Y : Fin 3 → Fin 1 → ℝ) (hY : ∀ i f, single.round (tenths3 i f) = .fin (Y i f))

example := C314_distances CosLib.rounded CosLib.rounded_near CosLib.rounded_sqrt_zero (by norm_num) tenths3 Y hY
  (fun i f => (tenths3_normal i f).imp_right fun h => h.1.trans (le_abs_self _)) (3 / 10) (1 / 10) (by norm_num) tenths3_norm (by norm_num) _
  tenths3_euclid tenths3_apart _ rfl

example (o o' : ArgPart (XR ℝ)) (rnd rnd' : Hubness.Rnd) (sched sched' : Hubness.Schedule) := C314_hubness CosLib.rounded CosLib.rounded_near
  CosLib.rounded_sqrt_zero (by norm_num) tenths3 Y hY (fun i f => (tenths3_normal i f).imp_right fun h => h.1.trans (le_abs_self _)) (3 / 10) (1 / 10)
  (by norm_num) tenths3_norm (by norm_num) _ tenths3_euclid tenths3_apart _ rfl o o' rnd rnd' sched sched' false false 1 le_rfl (by norm_num) 1 4
  (Or.inr le_rfl) (Or.inr (by norm_num)) true true _ tenths3_radius

example (srt srt' : Knn.ArgSort (XR ℝ)) (o o' : ArgPart (XR ℝ)) (rnd rnd' : Knn.Rnd) := C314_score CosLib.rounded CosLib.rounded_near
  CosLib.rounded_sqrt_zero (by norm_num) tenths3 Y hY (fun i f => (tenths3_normal i f).imp_right fun h => h.1.trans (le_abs_self _)) (3 / 10) (1 / 10)
  (by norm_num) tenths3_norm (by norm_num) _ tenths3_euclid tenths3_apart _ rfl srt srt' o o' rnd rnd' ![1, 1, 2] [1]
  (by intro k hk; rw [List.mem_singleton] at hk; omega) (fun _ => ![1 / 10, 1 / 10, 2 / 10])
  (by intro k hk i; rw [List.mem_singleton] at hk; subst hk; exact tenths3_radius i) (by norm_num)

example := C314_index CosLib.rounded CosLib.rounded_near CosLib.rounded_sqrt_zero (by norm_num) tenths3 Y hY
  (fun i f => (tenths3_normal i f).imp_right fun h => h.1.trans (le_abs_self _)) (3 / 10) (1 / 10) (by norm_num) tenths3_norm (by norm_num) _
  tenths3_euclid tenths3_apart _ rfl ![1, 1, 2] ⟨_, tenths3_untied⟩

example (order order' : MPEmp.Order ℝ) := C314_mutual_proximity CosLib.rounded CosLib.rounded_near CosLib.rounded_sqrt_zero (by norm_num) tenths3 Y hY
  (fun i f => (tenths3_normal i f).imp_right fun h => h.1.trans (le_abs_self _)) (3 / 10) (1 / 10) (by norm_num) tenths3_norm (by norm_num) _
  tenths3_euclid tenths3_apart _ rfl order order' false false 0 0

end

end HubToolbox.Relations
