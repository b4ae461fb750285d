import Verif.Relations.Monotone
import Verif.MPPar.Distributions

/-!
# Parametric Mutual Proximity with the normal and Gamma distributions themselves

The model takes the distribution functions of scipy as a parameter (`Dists`). Here the parameter is instantiated with the
normal and Gamma distributions of Mathlib. C220 and C221: the values of the two dense variants are probabilities of events for
two independent normal (Gamma) variables with the mean and variance of the distances of the two objects. C215 for the Gamma
variant: it is violated.
-/

set_option autoImplicit false

namespace HubToolbox.Spec

open MeasureTheory ProbabilityTheory

/-- The normal distribution with mean and variance of the values `f` on `N`. -/
noncomputable def fittedNormal {ι : Type} (N : Finset ι) (f : ι → ℝ) : Measure ℝ :=
  gaussianReal (meanOver N f) (variance N f).toNNReal

/-- The Gamma distribution with mean and (unbiased) variance of the values `f` on `N`. -/
noncomputable def fittedGamma {ι : Type} (N : Finset ι) (f : ι → ℝ) : Measure ℝ :=
  gammaMeasure (meanOver N f ^ 2 / sampleVariance N f) (meanOver N f / sampleVariance N f)

theorem fittedNormal_moments {ι : Type} (N : Finset ι) (f : ι → ℝ) :
    ∫ x, x ∂fittedNormal N f = meanOver N f ∧ Var[id; fittedNormal N f] = variance N f := by
  refine ⟨integral_id_gaussianReal, ?_⟩
  unfold fittedNormal
  rw [variance_id_gaussianReal]
  refine Real.coe_toNNReal _ ?_
  unfold variance
  positivity

/-- The Gamma distribution does have the mean and variance of the values. -/
theorem fittedGamma_moments {ι : Type} (N : Finset ι) (f : ι → ℝ) (hm : 0 < meanOver N f) (hv : 0 < sampleVariance N f) :
    ∫ x, x ∂fittedGamma N f = meanOver N f ∧ ∫ x, (x - meanOver N f) ^ 2 ∂fittedGamma N f = sampleVariance N f := by
  have ha : 0 < meanOver N f ^ 2 / sampleVariance N f := by positivity
  have hr : 0 < meanOver N f / sampleVariance N f := by positivity
  have e : meanOver N f ^ 2 / sampleVariance N f / (meanOver N f / sampleVariance N f) = meanOver N f := by
    field_simp
  constructor
  · unfold fittedGamma
    rw [Prob.gamma_mean ha hr, e]
  · have h := Prob.gamma_variance ha hr
    rw [e] at h
    unfold fittedGamma
    rw [h]
    field_simp

end HubToolbox.Spec

namespace HubToolbox.MPPar

open HubToolbox MeasureTheory ProbabilityTheory

/-- The functions of scipy: `scipy.stats.norm.cdf` and `scipy.special.gammainc`. For a shape of zero `gammainc` is one for
positive arguments, for an infinite shape it is zero. -/
noncomputable def scipy : Dists where
  phi := cdf (gaussianReal 0 1)
  phi_mono := monotone_cdf _
  phi_nonneg := cdf_nonneg _
  phi_le_one := cdf_le_one _
  gammainc := fun a x => match a, x with
    | .fin a, .fin x => if 0 < a ∧ 0 ≤ x then .fin (cdf (gammaMeasure a 1) x) else if a = 0 ∧ 0 < x then .fin 1 else .nan
    | .fin a, .pinf => if 0 ≤ a then .fin 1 else .nan
    | .pinf, .fin x => if 0 ≤ x then .fin 0 else .nan
    | _, _ => .nan
  gammainc_nan := by intro x; rfl
  gammainc_nan' := by intro a; cases a <;> rfl
  gamma := fun a x => cdf (gammaMeasure a 1) x
  gammainc_fin := by
    intro a x ha hx
    simp only [if_pos (And.intro ha hx)]
  gamma_mono := fun a x y _ _ h => monotone_cdf _ h
  gamma_zero := fun a ha => Prob.cdf_gamma_zero ha
  gamma_le_one := fun a x _ _ => cdf_le_one _ _

/-- The normal distribution is symmetric, as C90 requires. -/
theorem scipy_symmetric (x : ℝ) : scipy.phi (-x) = 1 - scipy.phi x := Prob.phi_neg x

theorem normalProb_cdf {ι : Type} (N : Finset ι) (f : ι → ℝ) (h : Spec.stdDev N f ≠ 0) (x : ℝ) :
    Spec.normalProb scipy.phi N f x = cdf (Spec.fittedNormal N f) x := by
  have hpos : 0 < Spec.stdDev N f := lt_of_le_of_ne (Real.sqrt_nonneg _) (Ne.symm h)
  unfold Spec.normalProb Spec.fittedNormal
  rw [show Spec.guard (Spec.stdDev N f) = Spec.stdDev N f by rw [Spec.guard, if_neg h]]
  rw [show Spec.variance N f = Spec.stdDev N f ^ 2 from (Real.sq_sqrt (variance_nonneg N f)).symm, Prob.cdf_gaussian _ _ hpos]
  rfl

theorem gammaProb_cdf {ι : Type} (N : Finset ι) (f : ι → ℝ) (hm : 0 < Spec.meanOver N f) (hv : 0 < Spec.sampleVariance N f) (x : ℝ) :
    Spec.gammaProb scipy.gamma N f x = cdf (Spec.fittedGamma N f) x := by
  have ha : 0 < Spec.meanOver N f ^ 2 / Spec.sampleVariance N f := by positivity
  have hr : 0 < Spec.meanOver N f / Spec.sampleVariance N f := by positivity
  unfold Spec.gammaProb Spec.fittedGamma
  rw [show Spec.guard (Spec.sampleVariance N f) = Spec.sampleVariance N f by rw [Spec.guard, if_neg hv.ne'], Prob.cdf_gamma ha hr]
  change cdf (gammaMeasure _ 1) _ = _
  rcases le_total 0 x with hx | hx
  · rw [max_eq_left hx]
    congr 1
    field_simp
  · rw [max_eq_right hx, zero_div, Prob.cdf_gamma_zero ha, Prob.cdf_gamma_nonpos ha (mul_nonpos_of_nonneg_of_nonpos hr.le hx)]

/-- **C220**. For every symmetric matrix in which the values of each object to the other training objects are not all the
same: with distances, one minus the secondary distance of two objects is the probability that two independent normal
variables, which have mean and variance of the distances of either object, both exceed their distance. With similarities the
secondary similarity is the probability that both are at most their similarity. All values of different objects are strictly
between zero and one. -/
theorem C220_gaussi {n : ℕ} (D : Fin n → Fin n → ℝ) (hD : ∀ i j, D i j = D j i) (mn : ℤ) (test : Option (List ℤ))
    (hsd : ∀ j, Spec.stdDev ((Spec.training n test).erase j) (D j) ≠ 0) :
    (∃ M : Fin n → Fin n → ℝ, gaussi scipy (.mat false n n D) "distance" 0 mn test none = .ok ⟨n, n, fun i j => .fin (M i j)⟩ ∧
      ∀ i j, i ≠ j → 1 - M i j = ((Spec.fittedNormal ((Spec.training n test).erase i) (D i)).prod
        (Spec.fittedNormal ((Spec.training n test).erase j) (D j))).real {p | D i j < p.1 ∧ D i j < p.2} ∧
        0 < M i j ∧ M i j < 1) ∧
    (∃ M : Fin n → Fin n → ℝ, gaussi scipy (.mat false n n D) "similarity" 0 mn test none = .ok ⟨n, n, fun i j => .fin (M i j)⟩ ∧
      ∀ i j, i ≠ j → M i j = ((Spec.fittedNormal ((Spec.training n test).erase i) (D i)).prod
        (Spec.fittedNormal ((Spec.training n test).erase j) (D j))).real {p | p.1 ≤ D i j ∧ p.2 ≤ D i j} ∧
        0 < M i j ∧ M i j < 1) := by
  have hne : ∀ j, ((Spec.training n test).erase j).Nonempty := fun j => nonempty_of_std (hsd j)
  have hb : ∀ (N : Finset (Fin n)) (f : Fin n → ℝ) (x : ℝ), 0 < Spec.normalProb scipy.phi N f x ∧ Spec.normalProb scipy.phi N f x < 1 :=
    fun N f x => ⟨Prob.phi_pos _, Prob.phi_lt_one _⟩
  haveI : ∀ j, IsProbabilityMeasure (Spec.fittedNormal ((Spec.training n test).erase j) (D j)) := fun j => by
    unfold Spec.fittedNormal
    infer_instance
  constructor
  · obtain ⟨M, h, hf⟩ := C26_formula scipy D hD "distance" (Or.inr rfl) mn test hne
    refine ⟨M, h, fun i j hij => ?_⟩
    have e : M i j = 1 - (1 - Spec.normalProb scipy.phi ((Spec.training n test).erase i) (D i) (D i j)) *
        (1 - Spec.normalProb scipy.phi ((Spec.training n test).erase j) (D j) (D i j)) := by
      rw [hf i j hij, Spec.mutualProximity, if_neg (by decide)]
    obtain ⟨p0, p1⟩ := hb ((Spec.training n test).erase i) (D i) (D i j)
    obtain ⟨q0, q1⟩ := hb ((Spec.training n test).erase j) (D j) (D i j)
    refine ⟨?_, ?_, ?_⟩
    · rw [Prob.both_above, e, normalProb_cdf _ _ (hsd i), normalProb_cdf _ _ (hsd j)]
      ring
    · rw [e]
      nlinarith
    · rw [e]
      nlinarith
  · obtain ⟨M, h, hf⟩ := C26_formula scipy D hD "similarity" (Or.inl rfl) mn test hne
    refine ⟨M, h, fun i j hij => ?_⟩
    have e : M i j = Spec.normalProb scipy.phi ((Spec.training n test).erase i) (D i) (D i j) *
        Spec.normalProb scipy.phi ((Spec.training n test).erase j) (D j) (D i j) := by
      rw [hf i j hij, Spec.mutualProximity, if_pos rfl]
    obtain ⟨p0, p1⟩ := hb ((Spec.training n test).erase i) (D i) (D i j)
    obtain ⟨q0, q1⟩ := hb ((Spec.training n test).erase j) (D j) (D i j)
    refine ⟨?_, ?_, ?_⟩
    · rw [Prob.both_below, e, normalProb_cdf _ _ (hsd i), normalProb_cdf _ _ (hsd j)]
    · rw [e]
      exact mul_pos p0 q0
    · rw [e]
      nlinarith

/-- **C221**. The same for the Gamma variant: if the values of each object to the other training objects have positive mean
and are not all the same, one minus the secondary distance of two objects is the probability that two independent Gamma
variables, which have mean and variance of the distances of either object, both exceed their distance. -/
theorem C221_gammai {n : ℕ} (D : Fin n → Fin n → ℝ) (hD : ∀ i j, D i j = D j i) (mn : ℤ) (test : Option (List ℤ))
    (h2 : ∀ j, 2 ≤ ((Spec.training n test).erase j).card)
    (hmu : ∀ j, 0 < Spec.meanOver ((Spec.training n test).erase j) (D j))
    (hv : ∀ j, Spec.sampleVariance ((Spec.training n test).erase j) (D j) ≠ 0) :
    (∃ M : Fin n → Fin n → ℝ, gammai scipy (.mat false n n D) "distance" mn test = .ok ⟨n, fun i j => .fin (M i j)⟩ ∧
      ∀ i j, i ≠ j → 1 - M i j = ((Spec.fittedGamma ((Spec.training n test).erase i) (D i)).prod
        (Spec.fittedGamma ((Spec.training n test).erase j) (D j))).real {p | D i j < p.1 ∧ D i j < p.2} ∧
        M i j < 1 ∧ (M i j = 0 ↔ D i j ≤ 0)) ∧
    (∃ M : Fin n → Fin n → ℝ, gammai scipy (.mat false n n D) "similarity" mn test = .ok ⟨n, fun i j => .fin (M i j)⟩ ∧
      ∀ i j, i ≠ j → M i j = ((Spec.fittedGamma ((Spec.training n test).erase i) (D i)).prod
        (Spec.fittedGamma ((Spec.training n test).erase j) (D j))).real {p | p.1 ≤ D i j ∧ p.2 ≤ D i j} ∧
        M i j < 1 ∧ (M i j = 0 ↔ D i j ≤ 0)) := by
  have hcol : ∀ i, (fun c => D c i) = D i := fun i => funext fun c => hD c i
  have hv : ∀ j, 0 < Spec.sampleVariance ((Spec.training n test).erase j) (D j) := fun j =>
    lt_of_le_of_ne (sampleVariance_nonneg _ _ (h2 j)) (Ne.symm (hv j))
  have hb : ∀ j x, 0 ≤ Spec.gammaProb scipy.gamma ((Spec.training n test).erase j) (D j) x ∧
      Spec.gammaProb scipy.gamma ((Spec.training n test).erase j) (D j) x < 1 ∧
      (Spec.gammaProb scipy.gamma ((Spec.training n test).erase j) (D j) x = 0 ↔ x ≤ 0) := by
    intro j x
    have ha : 0 < Spec.meanOver ((Spec.training n test).erase j) (D j) ^ 2 /
        Spec.guard (Spec.sampleVariance ((Spec.training n test).erase j) (D j)) := by
      have := hmu j
      rw [Spec.guard, if_neg (hv j).ne']
      have := hv j
      positivity
    have hs : 0 < Spec.guard (Spec.sampleVariance ((Spec.training n test).erase j) (D j)) /
        Spec.meanOver ((Spec.training n test).erase j) (D j) := by
      rw [Spec.guard, if_neg (hv j).ne']
      exact div_pos (hv j) (hmu j)
    unfold Spec.gammaProb
    set s := Spec.guard (Spec.sampleVariance ((Spec.training n test).erase j) (D j)) /
        Spec.meanOver ((Spec.training n test).erase j) (D j) with hsdef
    have hx0 : 0 ≤ max x 0 / s := div_nonneg (le_max_right _ _) hs.le
    refine ⟨cdf_nonneg _ _, lt_of_lt_of_le (Prob.cdf_gamma_strict ha hx0 (lt_add_one _)) (cdf_le_one _ _), ?_⟩
    constructor
    · intro h
      by_contra hx
      push Not at hx
      have := Prob.cdf_gamma_strict ha le_rfl (show 0 < max x 0 / s by rw [max_eq_left hx.le]; exact div_pos hx hs)
      rw [Prob.cdf_gamma_zero ha] at this
      exact this.ne' h
    · intro hx
      rw [max_eq_right hx, zero_div]
      exact Prob.cdf_gamma_zero ha
  haveI : ∀ j, IsProbabilityMeasure (Spec.fittedGamma ((Spec.training n test).erase j) (D j)) := fun j => by
    have h1 := hmu j
    have h2 := hv j
    exact isProbabilityMeasure_gammaMeasure (by positivity) (by positivity)
  have hmu' : ∀ j, 0 < Spec.meanOver ((Spec.training n test).erase j) (fun c => D c j) := fun j => by
    rw [hcol]
    exact hmu j
  constructor
  · obtain ⟨M, h, _, _, _, hf⟩ := C27_valid_partial scipy D "distance" (Or.inr rfl) mn test h2 hmu'
    refine ⟨M, h, fun i j hij => ?_⟩
    have e : M i j = 1 - (1 - Spec.gammaProb scipy.gamma ((Spec.training n test).erase i) (D i) (D i j)) *
        (1 - Spec.gammaProb scipy.gamma ((Spec.training n test).erase j) (D j) (D i j)) := by
      rw [hf i j hij, Spec.mutualProximity, if_neg (by decide), hcol, hcol, hD j i]
    obtain ⟨p0, p1, p2⟩ := hb i (D i j)
    obtain ⟨q0, q1, q2⟩ := hb j (D i j)
    refine ⟨?_, ?_, ?_⟩
    · rw [Prob.both_above, e, gammaProb_cdf _ _ (hmu i) (hv i), gammaProb_cdf _ _ (hmu j) (hv j)]
      ring
    · rw [e]
      nlinarith
    · rw [← p2, e]
      constructor
      · intro h0
        nlinarith
      · intro h0
        have h0' := q2.2 (p2.1 h0)
        rw [h0, h0']
        norm_num
  · obtain ⟨M, h, _, _, _, hf⟩ := C27_valid_partial scipy D "similarity" (Or.inl rfl) mn test h2 hmu'
    refine ⟨M, h, fun i j hij => ?_⟩
    have e : M i j = Spec.gammaProb scipy.gamma ((Spec.training n test).erase i) (D i) (D i j) *
        Spec.gammaProb scipy.gamma ((Spec.training n test).erase j) (D j) (D i j) := by
      rw [hf i j hij, Spec.mutualProximity, if_pos rfl, hcol, hcol, hD j i]
    obtain ⟨p0, p1, p2⟩ := hb i (D i j)
    obtain ⟨q0, q1, q2⟩ := hb j (D i j)
    refine ⟨?_, ?_, ?_⟩
    · rw [Prob.both_below, e, gammaProb_cdf _ _ (hmu i) (hv i), gammaProb_cdf _ _ (hmu j) (hv j)]
    · rw [e]
      nlinarith
    · rw [e, mul_eq_zero, p2, q2, or_self]

/-! ### The Gamma variant is not monotone -/

/-- Ten objects: objects 0 and 1 have distance `d`, all others distance one. -/
noncomputable def ten (d : ℝ) (i j : Fin 10) : ℝ :=
  if i = j then 0 else if i = 0 ∧ j = 1 ∨ i = 1 ∧ j = 0 then d else 1

theorem ten_symm (d : ℝ) (i j : Fin 10) : ten d i j = ten d j i := by
  unfold ten
  by_cases h : i = j
  · rw [if_pos h, if_pos h.symm]
  · rw [if_neg h, if_neg (Ne.symm h)]
    refine if_congr ?_ rfl rfl
    tauto

theorem sum_erase_ten (f : Fin 10 → ℝ) (a : Fin 10) :
    ∑ j ∈ Finset.univ.erase a, f j = (f 0 + f 1 + f 2 + f 3 + f 4 + f 5 + f 6 + f 7 + f 8 + f 9) - f a := by
  have h := Finset.sum_erase_add Finset.univ f (Finset.mem_univ a)
  have h' : ∑ j, f j = f 0 + (f 1 + (f 2 + f 3 + f 4 + f 5 + f 6 + f 7 + f 8 + f 9)) := by
    rw [Fin.sum_univ_succ, Fin.sum_univ_succ, Fin.sum_univ_eight]
    rfl
  linarith

theorem training_ten : Spec.training 10 none = Finset.univ := by simp [Spec.training]

theorem card_ten (a : Fin 10) : ((Spec.training 10 none).erase a).card = 9 := by
  rw [training_ten, Finset.card_erase_of_mem (Finset.mem_univ a)]
  rfl

theorem mean_ten (d : ℝ) (a : Fin 10) : Spec.meanOver ((Spec.training 10 none).erase a) (ten d a) =
    if a = 0 ∨ a = 1 then (8 + d) / 9 else 1 := by
  unfold Spec.meanOver
  rw [card_ten, training_ten, sum_erase_ten]
  fin_cases a <;> simp [ten] <;> ring

theorem var_ten (d : ℝ) (a : Fin 10) (ha : a = 0 ∨ a = 1) :
    Spec.sampleVariance ((Spec.training 10 none).erase a) (ten d a) = ((d - 1) / 3) ^ 2 := by
  unfold Spec.sampleVariance
  rw [mean_ten, if_pos ha, card_ten, training_ten, sum_erase_ten]
  rcases ha with rfl | rfl <;> simp [ten] <;> ring

/-- **C215** (Gamma Mutual Proximity) is violated: ten objects, where all distances are one except the distance of two of
them. If the latter grows from 14/5 to 11/2, the secondary distance of these two objects decreases. -/
theorem C215_gammai_violated : ∃ (n : ℕ) (D D' : Fin n → Fin n → ℝ) (a b : Fin n), a ≠ b ∧ Spec.Raised (· ≤ ·) D D' a b ∧
    ∀ mn mn' : ℤ, ∃ M M' : Fin n → Fin n → ℝ,
      gammai scipy (.mat false n n D) "distance" mn none = .ok ⟨n, fun i j => .fin (M i j)⟩ ∧
      gammai scipy (.mat false n n D') "distance" mn' none = .ok ⟨n, fun i j => .fin (M' i j)⟩ ∧ M' a b < M a b := by
  refine ⟨10, ten (14 / 5), ten (11 / 2), 0, 1, by decide, ⟨ten_symm _, ten_symm _, ?_, ?_⟩, ?_⟩
  · simp [ten]
    norm_num
  · intro i j h1 h2
    unfold ten
    rw [if_neg (c := i = 0 ∧ j = 1 ∨ i = 1 ∧ j = 0) (by tauto), if_neg (c := i = 0 ∧ j = 1 ∨ i = 1 ∧ j = 0) (by tauto)]
  intro mn mn'
  have hcol : ∀ (d : ℝ) (i : Fin 10), (fun c => ten d c i) = ten d i := fun d i => funext fun c => ten_symm d c i
  have ok : ∀ (d : ℝ), 0 < d → ∀ mn, _ := fun d hd mn =>
    C27_valid_partial scipy (ten d) "distance" (Or.inr rfl) mn none (fun j => by rw [card_ten]; norm_num) (fun j => by
      rw [hcol, mean_ten]
      split_ifs
      · positivity
      · norm_num)
  obtain ⟨M, h, _, _, _, hf⟩ := ok (14 / 5) (by norm_num) mn
  obtain ⟨M', h', _, _, _, hf'⟩ := ok (11 / 2) (by norm_num) mn'
  refine ⟨M, M', h, h', ?_⟩
  rw [hf 0 1 (by decide), hf' 0 1 (by decide)]
  have val : ∀ (d : ℝ) (a : Fin 10), 1 < d → a = 0 ∨ a = 1 →
      Spec.gammaProb scipy.gamma ((Spec.training 10 none).erase a) (ten d a) d
        = cdf (gammaMeasure (((8 + d) / 9) ^ 2 / ((d - 1) / 3) ^ 2) 1) (d / (((d - 1) / 3) ^ 2 / ((8 + d) / 9))) := by
    intro d a hd ha
    have hne : ((d - 1) / 3) ^ 2 ≠ 0 := by
      have : 0 < d - 1 := by linarith
      positivity
    unfold Spec.gammaProb
    rw [mean_ten, if_pos ha, var_ten d a ha, Spec.guard, if_neg hne, max_eq_left (by linarith)]
    rfl
  have h01 : ∀ d, ten d 0 1 = d := fun d => by simp [ten]
  have h10 : ∀ d, ten d 1 0 = d := fun d => by simp [ten]
  simp only [hcol, h01, h10, Spec.mutualProximity]
  rw [if_neg (by decide), if_neg (by decide), val _ 0 (by norm_num) (Or.inl rfl), val _ 1 (by norm_num) (Or.inr rfl),
    val _ 0 (by norm_num) (Or.inl rfl), val _ 1 (by norm_num) (Or.inr rfl)]
  have e1 : cdf (gammaMeasure (((8 + (14 / 5 : ℝ)) / 9) ^ 2 / (((14 / 5 : ℝ) - 1) / 3) ^ 2) 1)
      ((14 / 5 : ℝ) / ((((14 / 5 : ℝ) - 1) / 3) ^ 2 / ((8 + (14 / 5 : ℝ)) / 9)))
      = 1 - Real.exp (-(28 / 3)) * (1 + 28 / 3 + (28 / 3) ^ 2 / 2 + (28 / 3) ^ 3 / 6) := by
    have := Prob.cdf_erlang 3 (x := 28 / 3) (by norm_num)
    rw [show (((3 : ℕ) : ℝ) + 1) = ((8 + (14 / 5 : ℝ)) / 9) ^ 2 / (((14 / 5 : ℝ) - 1) / 3) ^ 2 by norm_num] at this
    rw [show (14 / 5 : ℝ) / ((((14 / 5 : ℝ) - 1) / 3) ^ 2 / ((8 + (14 / 5 : ℝ)) / 9)) = 28 / 3 by norm_num, this]
    simp [Finset.sum_range_succ, Nat.factorial]
  have e2 : cdf (gammaMeasure (((8 + (11 / 2 : ℝ)) / 9) ^ 2 / (((11 / 2 : ℝ) - 1) / 3) ^ 2) 1)
      ((11 / 2 : ℝ) / ((((11 / 2 : ℝ) - 1) / 3) ^ 2 / ((8 + (11 / 2 : ℝ)) / 9)))
      = 1 - Real.exp (-(11 / 3)) := by
    have := Prob.cdf_erlang 0 (x := 11 / 3) (by norm_num)
    rw [show (((0 : ℕ) : ℝ) + 1) = ((8 + (11 / 2 : ℝ)) / 9) ^ 2 / (((11 / 2 : ℝ) - 1) / 3) ^ 2 by norm_num] at this
    rw [show (11 / 2 : ℝ) / ((((11 / 2 : ℝ) - 1) / 3) ^ 2 / ((8 + (11 / 2 : ℝ)) / 9)) = 11 / 3 by norm_num, this]
    simp
  rw [e1, e2]
  have hexp : Real.exp (-(28 / 3)) * (1 + 28 / 3 + (28 / 3) ^ 2 / 2 + (28 / 3) ^ 3 / 6) < Real.exp (-(11 / 3)) := by
    have h5 : Real.exp (17 / 3) = Real.exp 1 ^ 5 * Real.exp (2 / 3) := by
      rw [← Real.exp_nat_mul, ← Real.exp_add]
      norm_num
    have h6 : (148 : ℝ) ≤ Real.exp 1 ^ 5 := by
      have := Real.exp_one_gt_d9
      calc (148 : ℝ) ≤ 2.7182 ^ 5 := by norm_num
        _ ≤ _ := by gcongr; linarith
    have h7 : (5 / 3 : ℝ) ≤ Real.exp (2 / 3) := by
      have := Real.add_one_le_exp (2 / 3 : ℝ)
      linarith
    have h8 : (246 : ℝ) ≤ Real.exp (17 / 3) := by
      rw [h5]
      nlinarith
    have h9 : Real.exp (-(11 / 3)) = Real.exp (-(28 / 3)) * Real.exp (17 / 3) := by
      rw [← Real.exp_add]
      norm_num
    rw [h9]
    have := Real.exp_pos (-(28 / 3))
    gcongr
    norm_num
    linarith
  have hp := Real.exp_pos (-(28 / 3) : ℝ)
  have hq := Real.exp_pos (-(11 / 3) : ℝ)
  have hp' : 0 < Real.exp (-(28 / 3)) * (1 + 28 / 3 + (28 / 3) ^ 2 / 2 + (28 / 3) ^ 3 / 6) := by positivity
  generalize Real.exp (-(28 / 3)) * (1 + 28 / 3 + (28 / 3) ^ 2 / 2 + (28 / 3) ^ 3 / 6) = p at *
  nlinarith

-- The hypotheses of C220 and C221 are met by three points of a line.
theorem line3_sym (i j : Fin 3) : line3 i j = line3 j i := by
  fin_cases i <;> fin_cases j <;> rfl

theorem line3_col (j : Fin 3) : (fun c => line3 c j) = line3 j := funext fun c => line3_sym c j

example := C220_gaussi line3 line3_sym 30 none (fun j => by rw [← line3_col]; exact std3_ne j)

example := C221_gammai line3 line3_sym 30 none (fun j => by fin_cases j <;> decide)
  (fun j => by
    rw [show Spec.training 3 none = Finset.univ by simp [Spec.training]]
    unfold Spec.meanOver
    fin_cases j
    · rw [show Finset.univ.erase (⟨0, by norm_num⟩ : Fin 3) = {1, 2} by decide]; simp [line3]; norm_num
    · rw [show Finset.univ.erase (⟨1, by norm_num⟩ : Fin 3) = {0, 2} by decide]; simp [line3]; norm_num
    · rw [show Finset.univ.erase (⟨2, by norm_num⟩ : Fin 3) = {0, 1} by decide]; simp [line3]; norm_num)
  (fun j => by rw [← line3_col]; exact (var3_ne j).1)

end HubToolbox.MPPar
