import Verif.Relations.Stable
import Verif.Rounding.GaussError
import Verif.Rounding.Dsg

/-!
# Experiments on Gaussian Mutual Proximity and DisSim Global in double precision (C289)

As for C281: if the exact secondary distances of each object differ by more than twice the error bound, experiments on the secondary distances computed in
double precision give the results of the exact ones.
-/

set_option autoImplicit false

namespace HubToolbox.Relations

open HubToolbox Ieee Rounding ProbabilityTheory MeasureTheory

/-- Values which differ by more than twice an error bound keep their order. -/
theorem close_order {x y x' y' e : ℝ} (hx : |x' - x| ≤ e) (hy : |y' - y| ≤ e) (h : 2 * e < |x - y|) :
    (x < y ∧ x' < y') ∨ (y < x ∧ y' < x') := by
  have e1 := abs_le.1 hx
  have e2 := abs_le.1 hy
  have h0 : 0 ≤ e := (abs_nonneg _).trans hx
  rcases lt_abs.1 h with h1 | h1
  · exact Or.inr ⟨by linarith, by linarith [e1.1, e2.2]⟩
  · exact Or.inl ⟨by linarith, by linarith [e1.2, e2.1]⟩

/-- **C289** (Mutual Proximity): if the secondary distances of each object under `mutual_proximity_gaussi` differ by more than twice the error bound of C222,
experiments on the secondary distances computed in double precision give the results of the exact secondary distances. -/
theorem C289_gaussi (L : ProbLib ℝ) {δ : ℝ} (hL : L.Near δ) {n : ℕ} (hn : n ≤ 2 ^ 40) (D : Fin n → Fin n → ℝ) (test : Option (List ℤ))
    {B κ : ℝ} (hD : Spread D test B κ) (mn : ℤ) (M : Fin n → Fin n → ℝ)
    (hM : MPPar.gaussi MPPar.scipy (.mat false n n D) "distance" 0 mn test none = .ok ⟨n, n, fun i j => .fin (M i j)⟩)
    (hgap : ∀ i a b, a ≠ i → b ≠ i → a ≠ b → 2 * (2 * δ + 54 * n * κ * 2 ^ (-53 : ℤ)) < |M i a - M i b|) :
    ∃ M' : Fin n → Fin n → XR ℝ, (double.rounding ℝ).gaussi L (fun i j => .fin (D i j)) "distance" test = .ok ⟨n, M'⟩ ∧
      Spec.SameExperiments (fun i j => .fin (M i j)) M' := by
  obtain ⟨E, M', h1, h2, he⟩ := C222 L hL hn D test hD "distance" (Or.inr rfl) mn
  have hE : ∀ i j, M i j = E i j := by
    rw [hM] at h1
    have := Except.ok.inj h1
    simp only [Sigma.mk.injEq, heq_eq_eq, true_and] at this
    exact fun i j => XR.fin.inj (congrFun (congrFun this i) j)
  refine ⟨_, h2, gap_same fun i a b ha hb hab => ?_⟩
  have hg := hgap i a b ha hb hab
  have e1 := he i a
  have e2 := he i b
  rw [← hE] at e1 e2
  exact close_order e1 e2 hg

/-- **C289** (DisSim Global): if the dissimilarities of each vector to the others under `dis_sim_global` differ by more than twice the error bound of C267,
experiments on the dissimilarities computed in double precision give the results of the exact ones. -/
theorem C289_dis_sim_global {sum : List (XR ℝ) → XR ℝ}
    (hsum : ∀ l, (∀ a ∈ l, (double.rounding ℝ).Float a) → (double.rounding ℝ).Sums l (sum l))
    {n p : ℕ} (hn0 : 0 < n) (hn : n ≤ 2 ^ 40) (hp0 : 0 < p) (hp : p ≤ 2 ^ 40) (X : Fin n → Fin p → ℝ)
    {A : ℝ} (hA0 : 2 ^ (-400 : ℤ) ≤ A) (hA1 : A ≤ 2 ^ (400 : ℤ)) (hX : ∀ i f, |X i f| ≤ A)
    (hf : ∀ j f, double.round (X j f) = .fin (X j f)) (M : Fin n → Fin n → ℝ)
    (hM : Cent.disSimGlobal X none = .ok ⟨n, fun i j => .fin (M i j)⟩)
    (hgap : ∀ i a b, a ≠ i → b ≠ i → a ≠ b →
      2 * ((96 * p + 20 * n + 231) * 2 ^ (-53 : ℤ) * (p * A ^ 2)) < |M i a - M i b|) :
    ∃ c : Fin p → ℝ, (∀ f, (double.rounding ℝ).columnMean sum X f = .fin (c f)) ∧
      ∀ (L : Products ℝ n n) (Lx : Products ℝ n 1), L.Near X X → Lx.Near X (fun _ => c) →
        Spec.SameExperiments (fun i j => .fin (M i j)) ((double.rounding ℝ).disSimGlobalSelf L Lx) := by
  obtain ⟨c, hc, h⟩ := C267_self hsum hn hp0 hp X hA0 hA1 hX hf hn0
  refine ⟨c, hc, fun L Lx hL hLx => ?_⟩
  have hE : ∀ i j, M i j = Spec.disSimGlobal (Spec.centroid Finset.univ X) (X i) (X j) := by
    rw [Cent.C40_formula X hn0 hp0] at hM
    have := Except.ok.inj hM
    simp only [Sigma.mk.injEq, heq_eq_eq, true_and] at this
    exact fun i j => (XR.fin.inj (congrFun (congrFun this i) j)).symm
  choose z hz he using h L Lx hL hLx
  have hz' : (double.rounding ℝ).disSimGlobalSelf L Lx = LS.toXR z := by
    funext i j
    exact hz i j
  rw [hz']
  refine gap_same fun i a b ha hb hab => ?_
  have e1 := he i a
  have e2 := he i b
  rw [← hE] at e1 e2
  exact close_order e1 e2 (hgap i a b ha hb hab)

/-! ### Non-vacuity -/

/-- Density of the normal distribution around its mean. -/
theorem density_ge {x : ℝ} (h1 : -2 ≤ x) (h2 : x ≤ 2) : 1 / 27 ≤ gaussianPDFReal 0 1 x := by
  unfold gaussianPDFReal
  have hs : √(2 * Real.pi * ((1 : NNReal) : ℝ)) ≤ 3 := by
    rw [Real.sqrt_le_left (by norm_num)]
    have := Real.pi_lt_four
    push_cast
    linarith
  have hs0 : 0 < √(2 * Real.pi * ((1 : NNReal) : ℝ)) := by
    apply Real.sqrt_pos.2
    have := Real.pi_pos
    push_cast
    linarith
  have he : 1 / 9 ≤ Real.exp (-(x - 0) ^ 2 / (2 * ((1 : NNReal) : ℝ))) := by
    have h : Real.exp (-2) ≤ Real.exp (-(x - 0) ^ 2 / (2 * ((1 : NNReal) : ℝ))) := by
      apply Real.exp_le_exp.2
      push_cast
      nlinarith
    refine le_trans ?_ h
    rw [Real.exp_neg, one_div]
    apply inv_anti₀ (Real.exp_pos _)
    have h3 := Real.exp_one_lt_d9
    have : Real.exp 2 = Real.exp 1 * Real.exp 1 := by rw [← Real.exp_add]; norm_num
    rw [this]
    have := Real.exp_pos 1
    nlinarith
  have hi : 1 / 3 ≤ (√(2 * Real.pi * ((1 : NNReal) : ℝ)))⁻¹ := by
    rw [one_div]
    exact inv_anti₀ hs0 hs
  have := mul_le_mul hi he (by norm_num) (by positivity)
  linarith

/-- The normal distribution function grows at a minimal rate around its mean. -/
theorem phi_gap {x y : ℝ} (h1 : -2 ≤ x) (h : x ≤ y) (h2 : y ≤ 2) :
    (y - x) / 27 ≤ cdf (gaussianReal 0 1) y - cdf (gaussianReal 0 1) x := by
  have hd : (gaussianReal 0 1).real (Set.Iic y) = (gaussianReal 0 1).real (Set.Iic x) + (gaussianReal 0 1).real (Set.Ioc x y) := by
    rw [← measureReal_union (by rw [Set.disjoint_left]; intro t h1 h2; exact absurd h1 (not_le.2 h2.1)) measurableSet_Ioc,
      Set.Iic_union_Ioc_eq_Iic h]
  rw [cdf_eq_real, cdf_eq_real, hd, add_sub_cancel_left, measureReal_def, gaussianReal_apply_eq_integral 0 one_ne_zero]
  have hi : IntegrableOn (gaussianPDFReal 0 1) (Set.Ioc x y) := (integrable_gaussianPDFReal 0 1).integrableOn
  have := setIntegral_ge_of_const_le (c := (1 / 27 : ℝ)) measurableSet_Ioc (by simp) (fun t ht => density_ge (h1.trans ht.1.le) (ht.2.trans h2)) hi
  rw [measureReal_def, Real.volume_Ioc, ENNReal.toReal_ofReal (by linarith)] at this
  rw [smul_eq_mul] at this
  rw [ENNReal.toReal_ofReal (le_trans (by apply mul_nonneg <;> linarith) this)]
  linarith

theorem std_pair {n : ℕ} {T : Finset (Fin n)} {f : Fin n → ℝ} {a b : Fin n} {m s : ℝ} (hT : T = {a, b}) (hab : a ≠ b) (ha : f a = m - s) (hb : f b = m + s)
    (hs : 0 < s) (φ : ℝ → ℝ) (x : ℝ) : Spec.normalProb φ T f x = φ ((x - m) / s) := by
  have hm : Spec.meanOver T f = m := by
    unfold Spec.meanOver
    rw [hT, Finset.sum_pair hab, Finset.card_pair hab, ha, hb]
    push_cast
    ring
  have hv : Spec.stdDev T f = s := by
    unfold Spec.stdDev Spec.variance
    rw [hm, hT, Finset.sum_pair hab, Finset.card_pair hab, ha, hb]
    have : ((m - s - m) ^ 2 + (m + s - m) ^ 2) / ((2 : ℕ) : ℝ) = s ^ 2 := by push_cast; ring
    rw [this, Real.sqrt_sq hs.le]
  unfold Spec.normalProb Spec.guard
  rw [hm, hv, if_neg hs.ne']

theorem l01 : LS.line3 0 1 = 1 := rfl
theorem l02 : LS.line3 0 2 = 3 := rfl
theorem l10 : LS.line3 1 0 = 1 := rfl
theorem l12 : LS.line3 1 2 = 2 := rfl
theorem l20 : LS.line3 2 0 = 3 := rfl
theorem l21 : LS.line3 2 1 = 2 := rfl

/-- Gaussian Mutual Proximity of the points 0, 1 and 3 on a line. -/
noncomputable def line3MP (φ : ℝ → ℝ) : Fin 3 → Fin 3 → ℝ :=
  ![![0, 1 - (1 - φ (-1)) * (1 - φ (-1)), 1 - (1 - φ 1) * (1 - φ 1)],
    ![1 - (1 - φ (-1)) * (1 - φ (-1)), 0, 1 - (1 - φ 1) * (1 - φ (-1))],
    ![1 - (1 - φ 1) * (1 - φ 1), 1 - (1 - φ 1) * (1 - φ (-1)), 0]]

theorem line3_gaussM (F : MPPar.Dists) : MPPar.gaussM F "distance" (Spec.training 3 none) (fun i j => ((1 : ℤ) : ℝ) * LS.line3 i j) = line3MP F.phi := by
  have h0 : ∀ x, Spec.normalProb F.phi ((Spec.training 3 none).erase 0) (fun c => ((1 : ℤ) : ℝ) * LS.line3 c 0) x = F.phi ((x - 2) / 1) := fun x =>
    std_pair (a := 1) (b := 2) (by decide) (by decide) (by norm_num [l01, l02, l10, l12, l20, l21]) (by norm_num [l01, l02, l10, l12, l20, l21]) (by norm_num) _ _
  have h1 : ∀ x, Spec.normalProb F.phi ((Spec.training 3 none).erase 1) (fun c => ((1 : ℤ) : ℝ) * LS.line3 c 1) x = F.phi ((x - 3 / 2) / (1 / 2)) := fun x =>
    std_pair (a := 0) (b := 2) (by decide) (by decide) (by norm_num [l01, l02, l10, l12, l20, l21]) (by norm_num [l01, l02, l10, l12, l20, l21]) (by norm_num) _ _
  have h2 : ∀ x, Spec.normalProb F.phi ((Spec.training 3 none).erase 2) (fun c => ((1 : ℤ) : ℝ) * LS.line3 c 2) x = F.phi ((x - 5 / 2) / (1 / 2)) := fun x =>
    std_pair (a := 1) (b := 0) (by decide) (by decide) (by norm_num [l01, l02, l10, l12, l20, l21]) (by norm_num [l01, l02, l10, l12, l20, l21]) (by norm_num) _ _
  have m01 : min (0 : Fin 3) 1 = 0 ∧ max (0 : Fin 3) 1 = 1 ∧ min (1 : Fin 3) 0 = 0 ∧ max (1 : Fin 3) 0 = 1 := by decide
  have m02 : min (0 : Fin 3) 2 = 0 ∧ max (0 : Fin 3) 2 = 2 ∧ min (2 : Fin 3) 0 = 0 ∧ max (2 : Fin 3) 0 = 2 := by decide
  have m12 : min (1 : Fin 3) 2 = 1 ∧ max (1 : Fin 3) 2 = 2 ∧ min (2 : Fin 3) 1 = 1 ∧ max (2 : Fin 3) 1 = 2 := by decide
  obtain ⟨a1, a2, a3, a4⟩ := m01
  obtain ⟨b1, b2, b3, b4⟩ := m02
  obtain ⟨c1, c2, c3, c4⟩ := m12
  have d01 : ((1 : ℤ) : ℝ) * LS.line3 0 1 = 1 := by norm_num [l01, l02, l10, l12, l20, l21]
  have d02 : ((1 : ℤ) : ℝ) * LS.line3 0 2 = 3 := by norm_num [l01, l02, l10, l12, l20, l21]
  have d12 : ((1 : ℤ) : ℝ) * LS.line3 1 2 = 2 := by norm_num [l01, l02, l10, l12, l20, l21]
  have hd : ¬ ("distance" = "similarity") := by decide
  have e1 : ((1 : ℝ) - 2) / 1 = -1 := by norm_num
  have e2 : ((1 : ℝ) - 3 / 2) / (1 / 2) = -1 := by norm_num
  have e3 : ((3 : ℝ) - 2) / 1 = 1 := by norm_num
  have e4 : ((3 : ℝ) - 5 / 2) / (1 / 2) = 1 := by norm_num
  have e5 : ((2 : ℝ) - 3 / 2) / (1 / 2) = 1 := by norm_num
  have e6 : ((2 : ℝ) - 5 / 2) / (1 / 2) = -1 := by norm_num
  have g01 : MPPar.gaussM F "distance" (Spec.training 3 none) (fun i j => ((1 : ℤ) : ℝ) * LS.line3 i j) 0 1 = 1 - (1 - F.phi (-1)) * (1 - F.phi (-1)) := by
    unfold MPPar.gaussM Spec.mutualProximity
    rw [if_neg (by decide), if_neg hd, a1, a2, h0, h1]
    beta_reduce
    rw [d01, e1, e2]
  have g10 : MPPar.gaussM F "distance" (Spec.training 3 none) (fun i j => ((1 : ℤ) : ℝ) * LS.line3 i j) 1 0 = 1 - (1 - F.phi (-1)) * (1 - F.phi (-1)) := by
    unfold MPPar.gaussM Spec.mutualProximity
    rw [if_neg (by decide), if_neg hd, a3, a4, h0, h1]
    beta_reduce
    rw [d01, e1, e2]
  have g02 : MPPar.gaussM F "distance" (Spec.training 3 none) (fun i j => ((1 : ℤ) : ℝ) * LS.line3 i j) 0 2 = 1 - (1 - F.phi 1) * (1 - F.phi 1) := by
    unfold MPPar.gaussM Spec.mutualProximity
    rw [if_neg (by decide), if_neg hd, b1, b2, h0, h2]
    beta_reduce
    rw [d02, e3, e4]
  have g20 : MPPar.gaussM F "distance" (Spec.training 3 none) (fun i j => ((1 : ℤ) : ℝ) * LS.line3 i j) 2 0 = 1 - (1 - F.phi 1) * (1 - F.phi 1) := by
    unfold MPPar.gaussM Spec.mutualProximity
    rw [if_neg (by decide), if_neg hd, b3, b4, h0, h2]
    beta_reduce
    rw [d02, e3, e4]
  have g12 : MPPar.gaussM F "distance" (Spec.training 3 none) (fun i j => ((1 : ℤ) : ℝ) * LS.line3 i j) 1 2 = 1 - (1 - F.phi 1) * (1 - F.phi (-1)) := by
    unfold MPPar.gaussM Spec.mutualProximity
    rw [if_neg (by decide), if_neg hd, c1, c2, h1, h2]
    beta_reduce
    rw [d12, e5, e6]
  have g21 : MPPar.gaussM F "distance" (Spec.training 3 none) (fun i j => ((1 : ℤ) : ℝ) * LS.line3 i j) 2 1 = 1 - (1 - F.phi 1) * (1 - F.phi (-1)) := by
    unfold MPPar.gaussM Spec.mutualProximity
    rw [if_neg (by decide), if_neg hd, c3, c4, h1, h2]
    beta_reduce
    rw [d12, e5, e6, mul_comm]
  have gd : ∀ i, MPPar.gaussM F "distance" (Spec.training 3 none) (fun i j => ((1 : ℤ) : ℝ) * LS.line3 i j) i i = 0 := by
    intro i
    unfold MPPar.gaussM Spec.ownValue
    rw [if_pos rfl, if_neg hd]
  funext i j
  fin_cases i <;> fin_cases j
  · exact gd 0
  · exact g01
  · exact g02
  · exact g10
  · exact gd 1
  · exact g12
  · exact g20
  · exact g21
  · exact gd 2

theorem line3MP_gap (i a b : Fin 3) (ha : a ≠ i) (hb : b ≠ i) (hab : a ≠ b) :
    1 / 729 ≤ |line3MP (cdf (gaussianReal 0 1)) i a - line3MP (cdf (gaussianReal 0 1)) i b| := by
  have h1 := phi_gap (x := -1) (y := 1) (by norm_num) (by norm_num) (by norm_num)
  have h2 := phi_gap (x := 1) (y := 2) (by norm_num) (by norm_num) (by norm_num)
  have h3 := cdf_le_one (gaussianReal 0 1) 2
  unfold line3MP
  generalize cdf (gaussianReal 0 1) (-1) = p at *
  generalize cdf (gaussianReal 0 1) 1 = q at *
  have hq : 1 / 27 ≤ 1 - q := by linarith
  have hp : 1 / 27 ≤ 1 - p := by linarith
  have hpq : 1 / 27 ≤ q - p := by linarith
  have k1 : 1 / 729 ≤ (1 - q) * (q - p) := by
    have := mul_le_mul hq hpq (by norm_num) (by linarith)
    linarith
  have k2 : 1 / 729 ≤ (1 - p) * (q - p) := by
    have := mul_le_mul hp hpq (by norm_num) (by linarith)
    linarith
  rw [le_abs]
  fin_cases i <;> fin_cases a <;> fin_cases b <;> first
    | exact absurd rfl ha
    | exact absurd rfl hb
    | exact absurd rfl hab
    | (left; simp; linarith)
    | (right; simp; linarith)

/-- The points 0, 1 and 3 on a line, and correctly rounded functions. -/
example (mn : ℤ) := C289_gaussi ProbLib.rounded ProbLib.rounded_near (by norm_num) (fun i j => ((1 : ℤ) : ℝ) * LS.line3 i j) none
  (line3_spread 1 (by norm_num) (by norm_num)) mn (line3MP (cdf (gaussianReal 0 1)))
  (by
    rw [MPPar.gaussi_eq MPPar.scipy _ "distance" (Or.inr rfl) mn none (by decide), line3_gaussM]
    rfl)
  (fun i a b ha hb hab => by
    refine lt_of_lt_of_le ?_ (line3MP_gap i a b ha hb hab)
    rw [u_eq]
    norm_num)

/-- DisSim Global of three vectors in the plane. -/
def meanDsg : Fin 3 → Fin 3 → ℝ := ![![-26, 6, 20], ![6, -2, -4], ![20, -4, -16]]

theorem meanDsg_eq : Cent.disSimGlobal (fun i f => (meanZ i f : ℝ)) none = .ok ⟨3, fun i j => .fin (meanDsg i j)⟩ := by
  rw [Cent.C40_formula _ (by norm_num) (by norm_num)]
  have hc : Spec.centroid Finset.univ (fun i f => (meanZ i f : ℝ)) = fun _ => 1 := by
    funext f
    unfold Spec.centroid
    fin_cases f <;> simp [meanZ, Fin.sum_univ_three] <;> norm_num
  rw [hc]
  congr 2
  funext i j
  congr 1
  unfold Spec.inner
  rw [Fin.sum_univ_two]
  fin_cases i <;> fin_cases j <;> norm_num [meanZ, meanDsg]

example : Spec.SameExperiments (fun i j => .fin (meanDsg i j)) ((double.rounding ℝ).disSimGlobalSelf (intProducts2 meanZ meanZ)
    (intProducts2 meanZ (fun _ : Fin 1 => fun _ => 1))) := by
  obtain ⟨c, hc, h⟩ := C289_dis_sim_global (fun l hl => sums_foldl (double.rounding ℝ) l hl) (n := 3) (p := 2) (by norm_num) (by norm_num) (by norm_num) (by norm_num)
    (fun i f => (meanZ i f : ℝ)) (A := 4)
    ((two_zpow_le (show (-400 : ℤ) ≤ 2 by norm_num)).trans_eq (by norm_num))
    (le_trans (by norm_num) (two_zpow_le (show (2 : ℤ) ≤ 400 by norm_num)))
    (fun i f => by have : |meanZ i f| ≤ 4 := by revert i f; decide
                   exact_mod_cast this) meanZ_float meanDsg meanDsg_eq
    (fun i a b ha hb hab => by
      have : 1 ≤ |meanDsg i a - meanDsg i b| := by
        rw [le_abs]
        fin_cases i <;> fin_cases a <;> fin_cases b <;> first
          | exact absurd rfl ha
          | exact absurd rfl hb
          | exact absurd rfl hab
          | (left; norm_num [meanDsg]; done)
          | (right; norm_num [meanDsg]; done)
      refine lt_of_lt_of_le ?_ this
      norm_num)
  have hc1 : c = fun _ => ((1 : ℤ) : ℝ) := by
    funext f
    have := (hc f).symm.trans (meanZ_mean f)
    rw [Int.cast_one]
    exact XR.fin.inj this
  subst hc1
  exact h _ _ (intProducts2_near meanZ meanZ (by decide) (by decide) (by decide))
    (intProducts2_near meanZ (fun _ : Fin 1 => fun _ => 1) (by decide) (by decide) (by decide))

end HubToolbox.Relations
