import Verif.HubClass.Neighbours
import Verif.HubClass.TruncNormLemmas
import Mathlib.Analysis.Complex.ExponentialBounds

/-!
# C224: the corrected hubness measure `k_skewness_truncnorm_`
-/

set_option autoImplicit false

namespace HubToolbox.Spec

open MeasureTheory ProbabilityTheory

/-- Arithmetic mean. -/
noncomputable def avg (N : List ℕ) : ℝ := (N.map (fun x : ℕ => (x : ℝ))).sum / N.length

/-- Variance with the denominator `n - 1`. -/
noncomputable def sampleVar (N : List ℕ) : ℝ := (N.map (fun x : ℕ => ((x : ℝ) - avg N) ^ 2)).sum / (N.length - 1)

/-- The normal distribution with the mean and the variance of the counts, truncated to the range of counts in a 64 bit integer. -/
noncomputable def truncatedNormal (N : List ℕ) : Measure ℝ :=
  (gaussianReal (avg N) (sampleVar N).toNNReal)[|Set.Icc 0 (2 ^ 63 - 1)]

/-- Skewness of a distribution: third standardised central moment. -/
noncomputable def skewnessOf (P : Measure ℝ) : ℝ :=
  (∫ x, (x - ∫ y, y ∂P) ^ 3 ∂P) / (∫ x, (x - ∫ y, y ∂P) ^ 2 ∂P) ^ (3 / 2 : ℝ)

end HubToolbox.Spec

namespace HubToolbox.HubClass

open MeasureTheory ProbabilityTheory Set

theorem sumsq_eq_zero {N : List ℕ} {c : ℝ} (h : (N.map (fun x : ℕ => ((x : ℝ) - c) ^ 2)).sum = 0) :
    ∀ x ∈ N, (x : ℝ) = c := by
  induction N with
  | nil => simp
  | cons y N ih =>
    have h1 : 0 ≤ (N.map (fun x : ℕ => ((x : ℝ) - c) ^ 2)).sum :=
      List.sum_nonneg (by simp only [List.mem_map]; rintro _ ⟨x, -, rfl⟩; positivity)
    simp only [List.map_cons, List.sum_cons] at h
    have h2 := sq_nonneg ((y : ℝ) - c)
    intro x hx
    rcases List.mem_cons.1 hx with rfl | hx
    · have : ((x : ℝ) - c) ^ 2 = 0 := by linarith
      exact sub_eq_zero.1 (pow_eq_zero_iff two_ne_zero |>.1 this)
    · exact ih (by linarith) x hx

theorem sampleVar_nonneg {N : List ℕ} (h : 2 ≤ N.length) : 0 ≤ Spec.sampleVar N := by
  have : (2 : ℝ) ≤ N.length := by exact_mod_cast h
  refine div_nonneg (List.sum_nonneg (by simp only [List.mem_map]; rintro _ ⟨x, -, rfl⟩; positivity)) (by linarith)

theorem sampleVar_pos {N : List ℕ} (h : ∃ x ∈ N, ∃ y ∈ N, x ≠ y) : 2 ≤ N.length ∧ 0 < Spec.sampleVar N := by
  obtain ⟨x, hx, y, hy, hxy⟩ := h
  have h2 : 2 ≤ N.length := by
    match N, hx, hy with
    | [z], hx, hy => simp at hx hy; exact absurd (hx.trans hy.symm) hxy
    | _ :: _ :: _, _, _ => simp
  refine ⟨h2, lt_of_le_of_ne (sampleVar_nonneg h2) fun h0 => ?_⟩
  have : (2 : ℝ) ≤ N.length := by exact_mod_cast h2
  have h3 := (div_eq_zero_iff.1 h0.symm).resolve_right (by linarith)
  have hx' := sumsq_eq_zero h3 x hx
  have hy' := sumsq_eq_zero h3 y hy
  exact hxy (by exact_mod_cast hx'.trans hy'.symm)

theorem avg_of_const {N : List ℕ} {c : ℕ} (hn : 0 < N.length) (h : ∀ x ∈ N, x = c) : meanOf N = c := by
  rw [List.eq_replicate_of_mem h, meanOf]
  have : ((N.length : ℕ) : ℝ) ≠ 0 := by exact_mod_cast hn.ne'
  simp [field]

theorem std1_of_const {N : List ℕ} {c : ℕ} (hn : 0 < N.length) (h : ∀ x ∈ N, x = c) : std1 N = 0 := by
  have hm := avg_of_const hn h
  rw [std1, hm]
  have : (N.map (fun x : ℕ => ((x : ℝ) - c) ^ 2)).sum = 0 := by
    rw [List.eq_replicate_of_mem h]
    simp
  simp [this]

theorem third_moment_zero : ∫ x, x ^ 3 ∂(gaussianReal 0 1) = 0 := by
  have h : ∫ x, x ^ 3 ∂(gaussianReal 0 1) = ∫ x, (-x) ^ 3 ∂(gaussianReal 0 1) := by
    have e : (gaussianReal 0 1).map (fun x : ℝ => -x) = gaussianReal 0 1 := by rw [gaussianReal_map_neg]; simp
    conv_lhs => rw [← e]
    rw [integral_map (by fun_prop) (by fun_prop)]
  have h2 : ∫ x : ℝ, (-x) ^ 3 ∂(gaussianReal 0 1) = - ∫ x, x ^ 3 ∂(gaussianReal 0 1) := by
    rw [← integral_neg]
    congr 1
    funext x
    ring
  linarith

theorem avg_le {N : List ℕ} : Spec.avg N ≤ (N.sum : ℕ) := by
  have h : (N.map (fun x : ℕ => (x : ℝ))).sum = ((N.sum : ℕ) : ℝ) := (Nat.cast_list_sum N).symm
  rw [Spec.avg, h]
  rcases Nat.eq_zero_or_pos N.length with h0 | h0
  · obtain rfl := List.length_eq_zero_iff.1 h0
    simp
  · exact div_le_self (Nat.cast_nonneg _) (by exact_mod_cast h0)

theorem avg_nonneg {N : List ℕ} : 0 ≤ Spec.avg N :=
  div_nonneg (List.sum_nonneg (by simp only [List.mem_map]; rintro _ ⟨x, -, rfl⟩; positivity)) (Nat.cast_nonneg _)

theorem avg_pos {N : List ℕ} (h : ∃ x ∈ N, ∃ y ∈ N, x ≠ y) : 0 < Spec.avg N := by
  refine lt_of_le_of_ne avg_nonneg fun h0 => ?_
  obtain ⟨x, hx, y, hy, hxy⟩ := h
  have hn : (N.length : ℝ) ≠ 0 := by exact_mod_cast (List.length_pos_of_mem hx).ne'
  have h1 := (div_eq_zero_iff.1 h0.symm).resolve_right hn
  have h2 : ((N.sum : ℕ) : ℝ) = 0 := (Nat.cast_list_sum N).trans h1
  have h3 : N.sum = 0 := by exact_mod_cast h2
  have h4 := List.sum_eq_zero_iff.1 h3
  exact hxy ((h4 x hx).trans (h4 y hy).symm)

theorem stats_truncnorm {F : Type} [Field F] [LinearOrder F] (hubSize : F) (k n m : ℕ) (l : List ℕ) :
    (stats hubSize k n m l).truncnorm = skewnessTruncnorm (stats hubSize k n m l).kOcc := rfl

theorem fit_truncnorm {K F : Type} [Field K] [LinearOrder K] [Field F] [LinearOrder F] {w : World K} {P : Params F}
    {bs : ℕ} {shuffle hasSelf : Bool} {X : Data K} {fit : Fit F} (h : fitTransform w P bs shuffle hasSelf X = .ok fit) :
    fit.truncnorm = skewnessTruncnorm fit.kOcc := by
  unfold fitTransform at h
  split at h
  · cases h
  · cases hl : fitLists w P.metric P.nJobs (Int.toNat _) bs shuffle hasSelf X with
    | error e => rw [hl] at h; cases h
    | ok r =>
      rw [hl] at h
      obtain rfl : stats P.hubSize _ _ _ _ = fit := by injection h
      exact stats_truncnorm ..

theorem std1_sq {N : List ℕ} (h : 2 ≤ N.length) : std1 N ^ 2 = Spec.sampleVar N :=
  Real.sq_sqrt (sampleVar_nonneg h)

theorem clip_eq : ((clipRight : ℕ) : ℝ) = 2 ^ 63 - 1 := by norm_num [clipRight]

/-- C224: if the counts are not all equal, `k_skewness_truncnorm_` is the expectation of `((x - mean) / std)³` under the normal
distribution fitted to the counts and truncated to the possible counts; it is positive, and below 1.6. -/
theorem C224 {K F : Type} [Field K] [LinearOrder K] [Field F] [LinearOrder F] (w : World K) (P : Params F)
    (bs : ℕ) (shuffle hasSelf : Bool) (X : Data K) (fit : Fit F) (h : fitTransform w P bs shuffle hasSelf X = .ok fit)
    (hne : ∃ x ∈ fit.kOcc, ∃ y ∈ fit.kOcc, x ≠ y) :
    ∃ v : ℝ, fit.truncnorm = .fin v ∧
      v = ∫ x, ((x - Spec.avg fit.kOcc) / √(Spec.sampleVar fit.kOcc)) ^ 3 ∂(Spec.truncatedNormal fit.kOcc) ∧
      (fit.kOcc.sum ≤ 2 ^ 62 - 1 → 0 < v ∧ v < 1.6) := by
  set N := fit.kOcc
  obtain ⟨h2, hv⟩ := sampleVar_pos hne
  have hs : 0 < std1 N := Real.sqrt_pos.2 hv
  have hm := avg_pos hne
  have e : fit.truncnorm = .fin (truncnormMoment ((0 - meanOf N) / std1 N) ((clipRight - meanOf N) / std1 N) 3) := by
    rw [fit_truncnorm h, skewnessTruncnorm, if_neg (show ¬ N.length ≤ 1 by omega), if_neg hs.ne']
  refine ⟨_, e, ?_, ?_⟩
  · rw [Spec.truncatedNormal, ← std1_sq h2, integral_cond_map _ hs _ _ _ (by fun_prop), truncnormMoment, clip_eq]
    refine integral_congr_ae (Filter.Eventually.of_forall fun x => ?_)
    beta_reduce
    rw [Real.sqrt_sq hs.le, add_sub_cancel_left, mul_div_cancel_left₀ _ hs.ne']
  · intro hsum
    have hle : Spec.avg N ≤ 2 ^ 62 - 1 := by
      refine avg_le.trans ?_
      have : ((N.sum : ℕ) : ℝ) ≤ ((2 ^ 62 - 1 : ℕ) : ℝ) := by exact_mod_cast hsum
      norm_num at this ⊢
      exact this
    have ha : (0 - meanOf N) / std1 N < 0 := div_neg_of_neg_of_pos (by change 0 - Spec.avg N < 0; linarith) hs
    have hb : -((0 - meanOf N) / std1 N) < (clipRight - meanOf N) / std1 N := by
      rw [← neg_div, clip_eq]
      refine div_lt_div_of_pos_right ?_ hs
      change -(0 - Spec.avg N) < 2 ^ 63 - 1 - Spec.avg N
      clear_value N
      norm_num at hle ⊢
      linarith
    refine ⟨moment_pos (by linarith) ?_, (moment_lt ha (by linarith)).trans ?_⟩
    · rw [abs_of_neg ha, abs_of_pos (by linarith)]
      exact hb
    · have := phi_zero_lt
      norm_num at this ⊢
      linarith

/-- C224, equal counts: without any hubness the measure is 0. -/
theorem C224_equal {K F : Type} [Field K] [LinearOrder K] [Field F] [LinearOrder F] (w : World K) (P : Params F)
    (bs : ℕ) (shuffle hasSelf : Bool) (X : Data K) (fit : Fit F) (h : fitTransform w P bs shuffle hasSelf X = .ok fit)
    (h2 : 2 ≤ fit.kOcc.length) (c : ℕ) (hc : 0 < c) (heq : ∀ x ∈ fit.kOcc, x = c) :
    fit.truncnorm = .fin 0 := by
  have hn : 0 < fit.kOcc.length := by omega
  rw [fit_truncnorm h, skewnessTruncnorm, if_neg (by omega), if_pos (std1_of_const hn heq),
    avg_of_const hn heq, if_neg (by exact_mod_cast hc.ne'), third_moment_zero]

/-- **C224**, degenerate fits: the measure is `nan` exactly if there are fewer than two objects or nobody has any occurrence. -/
theorem C224_nan {K F : Type} [Field K] [LinearOrder K] [Field F] [LinearOrder F] (w : World K) (P : Params F)
    (bs : ℕ) (shuffle hasSelf : Bool) (X : Data K) (fit : Fit F) (h : fitTransform w P bs shuffle hasSelf X = .ok fit) :
    fit.truncnorm = .nan ↔ fit.kOcc.length ≤ 1 ∨ ∀ x ∈ fit.kOcc, x = 0 := by
  by_cases h1 : fit.kOcc.length ≤ 1
  · rw [fit_truncnorm h, skewnessTruncnorm, if_pos h1]
    exact iff_of_true rfl (Or.inl h1)
  · by_cases hne : ∃ x ∈ fit.kOcc, ∃ y ∈ fit.kOcc, x ≠ y
    · obtain ⟨v, hv, -⟩ := C224 w P bs shuffle hasSelf X fit h hne
      rw [hv]
      refine iff_of_false (by simp) (fun h0 => ?_)
      obtain ⟨x, hx, y, hy, hxy⟩ := hne
      exact hxy (((h0.resolve_left h1) x hx).trans ((h0.resolve_left h1) y hy).symm)
    · push Not at hne
      obtain ⟨c, hc⟩ := List.exists_mem_of_length_pos (show 0 < fit.kOcc.length by omega)
      have heq : ∀ x ∈ fit.kOcc, x = c := fun x hx => hne x hx c hc
      by_cases hc0 : c = 0
      · subst hc0
        rw [fit_truncnorm h, skewnessTruncnorm, if_neg h1, if_pos (std1_of_const (by omega) heq), avg_of_const (by omega) heq, if_pos (by simp)]
        exact iff_of_true rfl (Or.inr heq)
      · rw [C224_equal w P bs shuffle hasSelf X fit h (by omega) c (Nat.pos_of_ne_zero hc0) heq]
        exact iff_of_false (by simp) (fun h0 => hc0 ((h0.resolve_left h1) c hc))

/-! ### The measure is not the skewness of the fitted distribution -/

theorem exp_half : Real.exp (-1 ^ 2 / 2) < 0.6067 ∧ 0.6 < Real.exp (-1 ^ 2 / 2) := by
  have h1 : (1.6484 : ℝ) ≤ Real.exp (1 / 2) := by
    have := Real.sum_le_exp_of_nonneg (x := 1 / 2) (by norm_num) 5
    norm_num [Finset.sum_range_succ, Nat.factorial] at this ⊢
    linarith
  have h2 : Real.exp (1 / 2) < 1.6666 := by
    have h := Real.exp_one_lt_d9
    have : Real.exp (1 / 2) ^ 2 = Real.exp 1 := by rw [← Real.exp_nat_mul]; norm_num
    nlinarith [Real.exp_pos (1 / 2)]
  rw [show (-1 ^ 2 / 2 : ℝ) = -(1 / 2) by norm_num, Real.exp_neg]
  constructor
  · rw [inv_lt_comm₀ (Real.exp_pos _) (by norm_num)]
    refine lt_of_lt_of_le ?_ h1
    norm_num
  · rw [lt_inv_comm₀ (by norm_num) (Real.exp_pos _)]
    refine h2.trans ?_
    norm_num

theorem phi_one : phi 1 < 0.2421 ∧ 0.2 < phi 1 := by
  have h0 := phi_zero_lt
  have h0' := phi_zero_gt
  obtain ⟨h1, h2⟩ := exp_half
  have e : phi 1 = phi 0 * Real.exp (-1 ^ 2 / 2) := by rw [phi_eq, phi_eq]; norm_num
  rw [e]
  norm_num at h0 h0' h1 h2 ⊢
  constructor <;> nlinarith

theorem mass_one : 0.3324 < mass 0 1 := by
  have h : ∫ x in (0 : ℝ)..1, phi 0 * (1 - x ^ 2 / 2) ≤ mass 0 1 := by
    refine intervalIntegral.integral_mono_on zero_le_one (Continuous.intervalIntegrable (by fun_prop) _ _)
      (phi_continuous.intervalIntegrable _ _) fun x _ => ?_
    have e : phi x = phi 0 * Real.exp (-x ^ 2 / 2) := by rw [phi_eq, phi_eq]; norm_num
    rw [e]
    refine mul_le_mul_of_nonneg_left ?_ (phi_pos 0).le
    have := Real.add_one_le_exp (-x ^ 2 / 2)
    linarith
  have e : ∫ x in (0 : ℝ)..1, phi 0 * (1 - x ^ 2 / 2) = phi 0 * (5 / 6) := by
    rw [intervalIntegral.integral_const_mul, intervalIntegral.integral_sub (by simp) (Continuous.intervalIntegrable (by fun_prop) _ _),
      intervalIntegral.integral_div]
    norm_num [integral_pow]
  have := phi_zero_gt
  rw [e] at h
  norm_num at this ⊢
  linarith

theorem g_small {b : ℝ} (hb : 10 ^ 6 ≤ b) : g b ≤ 10 ^ (-9 : ℤ) := by
  have h1 : (b ^ 2 / 2) ^ 2 / 2 ≤ Real.exp (b ^ 2 / 2) := by
    have := Real.pow_div_factorial_le_exp (b ^ 2 / 2) (by positivity) 2
    simpa using this
  have h0 := phi_zero_lt
  have hp := phi_pos b
  have e : phi 0 = phi b * Real.exp (b ^ 2 / 2) := by
    rw [phi_eq, phi_eq, mul_assoc, ← Real.exp_add, show -b ^ 2 / 2 + b ^ 2 / 2 = 0 by ring]
    norm_num
  have hb0 : (0 : ℝ) < b := lt_of_lt_of_le (by norm_num) hb
  have hb2 : (10 : ℝ) ^ 12 ≤ b ^ 2 := by
    have := pow_le_pow_left₀ (by norm_num) hb 2
    norm_num at this ⊢
    exact this
  have h3 : phi b * ((b ^ 2 / 2) ^ 2 / 2) < 1 := by
    have := mul_le_mul_of_nonneg_left h1 hp.le
    norm_num at h0
    linarith
  have h4 : g b * b ^ 2 ≤ 16 := by
    have : g b * b ^ 2 = phi b * ((b ^ 2 / 2) ^ 2 / 2) * 8 + 2 * phi b * b ^ 2 := by rw [g]; ring
    have h5 : phi b * b ^ 2 ≤ phi b * ((b ^ 2 / 2) ^ 2 / 2) := by
      refine mul_le_mul_of_nonneg_left ?_ hp.le
      nlinarith
    linarith
  have hg := g_pos b
  rw [show (10 : ℝ) ^ (-9 : ℤ) = 1 / 10 ^ 9 by norm_num]
  rw [le_div_iff₀ (by norm_num)]
  by_contra hc
  push Not at hc
  have : (10 : ℝ) ^ 3 < g b * b ^ 2 := by
    calc (10 : ℝ) ^ 3 < g b * 10 ^ 9 * 10 ^ 3 := by nlinarith
      _ = g b * 10 ^ 12 := by ring
      _ ≤ g b * b ^ 2 := mul_le_mul_of_nonneg_left hb2 hg.le
  norm_num at this
  linarith

theorem numbers_aux {r m v M3 : ℝ} (hr : 1 / 5 < r) (hm : r - 1 / 100000000 ≤ m) (hm0 : 0 ≤ m) (hv1 : 31 / 50 < v)
    (hv2 : v < 1) (hM3 : M3 ≤ 3 * r) : M3 - 3 * m * v - m ^ 3 < M3 * v ^ 2 := by
  have hv3 : 961 / 2500 < v ^ 2 := by nlinarith
  have hv4 : v ^ 2 < 1 := by nlinarith
  have hA : M3 * (1 - v ^ 2) ≤ 3 * r * (1539 / 2500) :=
    mul_le_mul hM3 (by linarith) (by linarith) (by linarith)
  have hB : (r - 1 / 100000000) * (31 / 50) ≤ m * v := mul_le_mul hm hv1.le (by norm_num) hm0
  have hm3 : 0 ≤ m ^ 3 := by positivity
  linarith

/-- Numbers behind the counterexample: `p`, `Z` density and mass, `e₀, e₁, e₃` the contributions of the upper end. -/
theorem numbers {p Z e0 e1 e3 : ℝ} (hp : p < 0.2421) (hp' : 0.2 < p) (hZ : 0.8323 < Z) (hZ' : Z < 1) (h0 : 0 ≤ e0) (h0' : e0 ≤ 10 ^ (-9 : ℤ))
    (h1 : 0 ≤ e1) (h1' : e1 ≤ 10 ^ (-9 : ℤ)) (h3 : 0 ≤ e3) {m v M2 M3 : ℝ} (hm : m = (p - e0) / Z) (hM2 : M2 = (Z - p - e1) / Z)
    (hM3 : M3 = (3 * p - e3) / Z) (hM3' : 0 < M3) (hv : v = M2 - m ^ 2) :
    0 < v ∧ (M3 - 3 * m * M2 + 2 * m ^ 3) / v ^ (3 / 2 : ℝ) < M3 := by
  have hZ0 : 0 < Z := by linarith
  norm_num at h0' h1' hp hp' hZ
  set r := p / Z with hr
  have hr1 : r < 0.2909 := by rw [hr, div_lt_iff₀ hZ0]; norm_num; linarith
  have hr2 : 0.2 < r := by rw [hr, lt_div_iff₀ hZ0]; norm_num; nlinarith
  have d0 : 0 ≤ e0 / Z ∧ e0 / Z ≤ 0.00000001 := ⟨by positivity, by rw [div_le_iff₀ hZ0]; norm_num; linarith⟩
  have d1 : 0 ≤ e1 / Z ∧ e1 / Z ≤ 0.00000001 := ⟨by positivity, by rw [div_le_iff₀ hZ0]; norm_num; linarith⟩
  have d3 : 0 ≤ e3 / Z := by positivity
  have hm' : m = r - e0 / Z := by rw [hm, sub_div]
  have hM2' : M2 = 1 - r - e1 / Z := by rw [hM2, sub_div, sub_div, div_self hZ0.ne']
  have hM3'' : M3 = 3 * r - e3 / Z := by rw [hM3, sub_div, mul_div_assoc]
  generalize e0 / Z = t0 at *
  generalize e1 / Z = t1 at *
  generalize e3 / Z = t3 at *
  norm_num at hr1 hr2 d0 d1
  have hmr : m ≤ r := by linarith
  have hm2 : 0.1999 < m := by norm_num; linarith
  have hmm : m ^ 2 ≤ r ^ 2 := pow_le_pow_left₀ (by norm_num at hm2; linarith) hmr 2
  have hrr : r ^ 2 < 0.0847 := by norm_num; nlinarith
  norm_num at hm2 hrr
  have hv1 : 0.62 < v := by norm_num; linarith
  have hv2 : v < 1 := by nlinarith [sq_nonneg m]
  norm_num at hv1
  have hv0 : 0 < v := by linarith
  refine ⟨hv0, ?_⟩
  have hpow : v ^ 2 ≤ v ^ (3 / 2 : ℝ) := by
    rw [← Real.rpow_natCast v 2]
    exact Real.rpow_le_rpow_of_exponent_ge hv0 hv2.le (by norm_num)
  rw [div_lt_iff₀ (Real.rpow_pos_of_pos hv0 _)]
  refine lt_of_lt_of_le ?_ (mul_le_mul_of_nonneg_left hpow hM3'.le)
  have e : M3 - 3 * m * M2 + 2 * m ^ 3 = M3 - 3 * m * v - m ^ 3 := by rw [hv]; ring
  rw [e]
  exact numbers_aux hr2 (by linarith) (by linarith) (by linarith) hv2 (by linarith)

/-- Moments of the standard normal distribution truncated at `-1` and a large number. -/
theorem third_gt_skewness {b : ℝ} (hb : 10 ^ 6 ≤ b) :
    Spec.skewnessOf ((gaussianReal 0 1)[|Icc (-1) b]) < truncnormMoment (-1) b 3 := by
  have hb1 : (-1 : ℝ) < b := by norm_num at hb; linarith
  have hb0 : (1 : ℝ) < b := by norm_num at hb; linarith
  have hZ := mass_pos hb1
  have hg := g_small hb
  have hgb : g b = (b ^ 2 + 2) * phi b := rfl
  have hpb := phi_pos b
  have hga : g (-1) = 3 * phi 1 := by rw [g, phi_neg]; norm_num
  have i1 : ∫ x, x ∂((gaussianReal 0 1)[|Icc (-1) b]) = (phi 1 - phi b) / mass (-1) b := by
    rw [integral_cond hb1, int1, phi_neg]
  have i2 := int2 (-1) b
  rw [phi_neg] at i2
  have i3 : ∫ x in (-1)..b, phi x * x ^ 3 = 3 * phi 1 - g b := by rw [int3, phi_neg, g]; norm_num
  set Z := mass (-1) b with hZdef
  set m := (phi 1 - phi b) / Z with hm
  have hmZ : phi 1 - phi b = m * Z := by rw [hm, div_mul_cancel₀ _ hZ.ne']
  have c : ∀ j : ℕ, IntervalIntegrable (fun x => phi x * x ^ j) volume (-1) b :=
    fun j => (phi_continuous.mul (continuous_pow j)).intervalIntegrable _ _
  have k2 : ∫ x, (x - m) ^ 2 ∂((gaussianReal 0 1)[|Icc (-1) b]) = (Z - phi 1 - b * phi b) / Z - m ^ 2 := by
    rw [integral_cond hb1, ← hZdef]
    have e : ∫ x in (-1)..b, phi x * (x - m) ^ 2
        = (∫ x in (-1)..b, phi x * x ^ 2) - 2 * m * (∫ x in (-1)..b, phi x * x) + m ^ 2 * (∫ x in (-1)..b, phi x) := by
      rw [← intervalIntegral.integral_const_mul, ← intervalIntegral.integral_const_mul, ← intervalIntegral.integral_sub, ← intervalIntegral.integral_add]
      · congr 1
        funext x
        ring
      · exact (c 2).sub (by simpa using ((c 1).const_mul (2 * m)))
      · exact (phi_continuous.intervalIntegrable _ _).const_mul _
      · exact c 2
      · simpa using ((c 1).const_mul (2 * m))
    rw [e, i2, int1, phi_neg, hmZ, show ∫ x in (-1)..b, phi x = Z from rfl]
    field_simp
    ring
  have k3 : ∫ x, (x - m) ^ 3 ∂((gaussianReal 0 1)[|Icc (-1) b])
      = (3 * phi 1 - g b) / Z - 3 * m * ((Z - phi 1 - b * phi b) / Z) + 2 * m ^ 3 := by
    rw [integral_cond hb1, ← hZdef]
    have e : ∫ x in (-1)..b, phi x * (x - m) ^ 3
        = (∫ x in (-1)..b, phi x * x ^ 3) - 3 * m * (∫ x in (-1)..b, phi x * x ^ 2)
          + (3 * m ^ 2 * (∫ x in (-1)..b, phi x * x) - m ^ 3 * (∫ x in (-1)..b, phi x)) := by
      rw [← intervalIntegral.integral_const_mul, ← intervalIntegral.integral_const_mul, ← intervalIntegral.integral_const_mul,
        ← intervalIntegral.integral_sub, ← intervalIntegral.integral_sub, ← intervalIntegral.integral_add]
      · congr 1
        funext x
        ring
      · exact (c 3).sub ((c 2).const_mul _)
      · exact (IntervalIntegrable.sub (by simpa using ((c 1).const_mul (3 * m ^ 2))) ((phi_continuous.intervalIntegrable _ _).const_mul _))
      · simpa using ((c 1).const_mul (3 * m ^ 2))
      · exact (phi_continuous.intervalIntegrable _ _).const_mul _
      · exact c 3
      · exact (c 2).const_mul _
    rw [e, i2, i3, int1, phi_neg, hmZ, show ∫ x in (-1)..b, phi x = Z from rfl]
    field_simp
    ring
  have hM3 := truncnormMoment_three hb1
  rw [hga] at hM3
  have hZ1 : 0.8323 < Z := by
    have h1 : mass (-1) 0 = mass 0 1 := mass_neg 1
    have h2 := half_bound (b := b) (by linarith)
    have h3 := mass_one
    have h4 := phi_zero_gt
    have h5 := mass_add (-1) 0 b
    norm_num at h3 h4 hg ⊢
    rw [hZdef, ← h5, h1]
    by_contra hc
    push Not at hc
    have h6 : mass 0 b ≤ 4999 / 10000 := by linarith
    have h7 : 4 * phi 0 * mass 0 b ≤ 4 * phi 0 * (4999 / 10000) := mul_le_mul_of_nonneg_left h6 (by linarith)
    linarith
  have hZ2 : Z < 1 := by
    have h := mass_tendsto
    have hmono : ∀ B, b ≤ B → mass 0 b ≤ mass 0 B := by
      intro B hB
      have h1 := mass_add 0 b B
      rcases hB.lt_or_eq with h2 | rfl
      · have := mass_pos h2
        linarith
      · exact le_rfl
    have h2 : mass 0 b ≤ 1 / 2 := ge_of_tendsto h (Filter.eventually_atTop.2 ⟨b, hmono⟩)
    have h3 : mass 0 1 + mass 1 b = mass 0 b := mass_add 0 1 b
    have h4 := mass_pos hb0
    have h5 := mass_add (-1) 0 b
    rw [mass_neg 1] at h5
    rw [hZdef]
    linarith
  obtain ⟨-, h⟩ := numbers (e0 := phi b) (e1 := b * phi b) (e3 := g b) phi_one.1 phi_one.2 hZ1 hZ2 hpb.le
    (le_trans (by rw [hgb]; nlinarith [mul_nonneg (sq_nonneg b) hpb.le]) hg) (by positivity)
    (le_trans (by rw [hgb]; exact mul_le_mul_of_nonneg_right (by nlinarith) hpb.le) hg) (g_pos b).le hm rfl rfl
    (by rw [← hM3]; exact moment_pos hb1 (by rw [abs_neg, abs_one, abs_of_pos (by linarith)]; exact hb0)) rfl
  rw [Spec.skewnessOf, i1, k2, k3, hM3]
  exact h

/-- The skewness does not depend on zero point and unit. -/
theorem skewnessOf_affine (m : ℝ) {s : ℝ} (hs : 0 < s) {lo hi : ℝ} (h : lo < hi) :
    Spec.skewnessOf ((gaussianReal m (s ^ 2).toNNReal)[|Icc lo hi])
      = Spec.skewnessOf ((gaussianReal 0 1)[|Icc ((lo - m) / s) ((hi - m) / s)]) := by
  have hab : (lo - m) / s < (hi - m) / s := div_lt_div_of_pos_right (by linarith) hs
  have hZ := mass_pos hab
  set P := (gaussianReal 0 1)[|Icc ((lo - m) / s) ((hi - m) / s)] with hP
  have h1 : ∫ x, x ∂((gaussianReal m (s ^ 2).toNNReal)[|Icc lo hi]) = m + s * ∫ x, x ∂P := by
    rw [integral_cond_map m hs lo hi _ (by fun_prop), integral_cond hab, hP, integral_cond hab]
    have e : ∫ x in ((lo - m) / s)..((hi - m) / s), phi x * (m + s * x)
        = m * mass ((lo - m) / s) ((hi - m) / s) + s * ∫ x in ((lo - m) / s)..((hi - m) / s), phi x * x := by
      rw [mass, ← intervalIntegral.integral_const_mul, ← intervalIntegral.integral_const_mul, ← intervalIntegral.integral_add]
      · congr 1
        funext x
        ring
      · exact (phi_continuous.intervalIntegrable _ _).const_mul _
      · exact ((phi_continuous.mul continuous_id).intervalIntegrable _ _).const_mul _
    rw [e]
    field_simp
  have hc : ∀ j : ℕ, ∫ x, (x - (m + s * ∫ y, y ∂P)) ^ j ∂((gaussianReal m (s ^ 2).toNNReal)[|Icc lo hi])
      = s ^ j * ∫ x, (x - ∫ y, y ∂P) ^ j ∂P := by
    intro j
    generalize ∫ y, y ∂P = μ
    rw [integral_cond_map m hs lo hi _ (by fun_prop), ← integral_const_mul]
    congr 1
    funext x
    rw [← mul_pow]
    congr 1
    ring
  have hV : 0 ≤ ∫ x, (x - ∫ y, y ∂P) ^ 2 ∂P := integral_nonneg fun x => sq_nonneg _
  rw [Spec.skewnessOf, h1, hc, hc, Real.mul_rpow (by positivity) hV, ← Real.rpow_natCast s 2, ← Real.rpow_mul hs.le]
  rw [show ((2 : ℕ) : ℝ) * (3 / 2) = ((3 : ℕ) : ℝ) by norm_num, Real.rpow_natCast,
    mul_div_mul_left _ _ (by positivity)]
  rfl

theorem ex_avg : Spec.avg [1, 2, 0] = 1 := by norm_num [Spec.avg]

theorem ex_var : Spec.sampleVar [1, 2, 0] = 1 ^ 2 := by rw [Spec.sampleVar, ex_avg]; norm_num

/-- C224, as documented ("skewness of truncated normal distribution fitted with k-occurrence histogram"), is violated: three
points whose counts are 1, 2 and 0, and `k_skewness_truncnorm_` exceeds the skewness of the fitted distribution. -/
theorem C224_violated : ∃ (fit : Fit ℚ) (v : ℝ),
    fitTransform (stdWorld ℚ) (exP 1 2 "precomputed") 64 true true (.dense 3 3 exD false) = .ok fit ∧
    fit.kOcc = [1, 2, 0] ∧ fit.truncnorm = .fin v ∧ Spec.skewnessOf (Spec.truncatedNormal fit.kOcc) < v := by
  obtain ⟨fit, hfit, hk⟩ : ∃ fit : Fit ℚ, fitTransform (stdWorld ℚ) (exP 1 2 "precomputed") 64 true true (.dense 3 3 exD false) = .ok fit ∧
      fit.kOcc = [1, 2, 0] := by
    refine ⟨_, rfl, ?_⟩
    decide +kernel
  obtain ⟨v, hv, -, -⟩ := C224 _ _ _ _ _ _ fit hfit (by rw [hk]; exact ⟨1, by simp, 2, by simp, by decide⟩)
  refine ⟨fit, v, hfit, hk, hv, ?_⟩
  have hs : std1 [1, 2, 0] = 1 := by
    have := ex_var
    rw [std1, show meanOf [1, 2, 0] = 1 from ex_avg]
    norm_num
  have e : v = truncnormMoment (-1) (2 ^ 63 - 2) 3 := by
    have h := fit_truncnorm hfit
    rw [hv, hk, skewnessTruncnorm, if_neg (by simp), if_neg (by rw [hs]; exact one_ne_zero), hs,
      show meanOf [1, 2, 0] = 1 from ex_avg, clip_eq] at h
    injection h with h
    rw [h]
    congr 1 <;> norm_num
  rw [hk, Spec.truncatedNormal, ex_avg, ex_var, skewnessOf_affine 1 one_pos (by norm_num), e]
  have h := third_gt_skewness (b := 2 ^ 63 - 2) (by norm_num)
  have e1 : ((0 : ℝ) - 1) / 1 = -1 := by norm_num
  have e2 : ((2 : ℝ) ^ 63 - 1 - 1) / 1 = 2 ^ 63 - 2 := by norm_num
  rw [e1, e2]
  exact h

/-- Four points; the first is nobody's neighbour, and the others are neighbours of each other. -/
def leftD : Fin 4 → Fin 4 → XR ℚ :=
  ![![.fin 0, .fin 12, .fin 10, .fin 11], ![.fin 12, .fin 0, .fin 2, .fin 3], ![.fin 10, .fin 2, .fin 0, .fin 4],
    ![.fin 11, .fin 3, .fin 4, .fin 0]]

/-- C224, sign: the two measures of hubness of one estimator may have opposite signs. -/
theorem C224_sign : ∃ (fit : Fit ℚ) (v : ℝ),
    fitTransform (stdWorld ℚ) (exP 2 2 "precomputed") 64 true true (.dense 4 4 leftD false) = .ok fit ∧
    fit.skewness < 0 ∧ fit.truncnorm = .fin v ∧ 0 < v := by
  obtain ⟨fit, hfit, hk, hs⟩ : ∃ fit : Fit ℚ, fitTransform (stdWorld ℚ) (exP 2 2 "precomputed") 64 true true (.dense 4 4 leftD false) = .ok fit ∧
      fit.kOcc = [0, 2, 3, 3] ∧ fit.skewness = Hubness.skew fit.kOcc := by
    refine ⟨_, rfl, ?_, rfl⟩
    decide +kernel
  obtain ⟨v, hv, -, hpos⟩ := C224 _ _ _ _ _ _ fit hfit (by rw [hk]; exact ⟨0, by simp, 2, by simp, by decide⟩)
  refine ⟨fit, v, hfit, ?_, hv, (hpos (by rw [hk]; norm_num)).1⟩
  rw [hs, hk, Hubness.skew]
  norm_num
  exact div_neg_of_neg_of_pos (by norm_num) (Real.rpow_pos_of_pos (by norm_num) _)

/-- Two points, each the neighbour of the other. -/
def pairD : Fin 2 → Fin 2 → XR ℚ := ![![.fin 0, .fin 1], ![.fin 1, .fin 0]]

/-- `C224_equal` applies. -/
example : ∃ fit : Fit ℚ, fitTransform (stdWorld ℚ) (exP 1 2 "precomputed") 64 true true (.dense 2 2 pairD false) = .ok fit ∧
    fit.truncnorm = .fin 0 := by
  obtain ⟨fit, hfit, hk⟩ : ∃ fit : Fit ℚ, fitTransform (stdWorld ℚ) (exP 1 2 "precomputed") 64 true true (.dense 2 2 pairD false) = .ok fit ∧
      fit.kOcc = [1, 1] := by
    refine ⟨_, rfl, ?_⟩
    decide +kernel
  exact ⟨fit, hfit, C224_equal _ _ _ _ _ _ fit hfit (by rw [hk]; decide) 1 one_pos (by rw [hk]; simp)⟩

end HubToolbox.HubClass
