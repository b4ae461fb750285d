import Verif.Rounding.DsgModel
import Verif.Rounding.HubVec
import Verif.Rounding.Centering

/-!
# Accuracy of DisSim Global in double precision
-/

set_option autoImplicit false

namespace HubToolbox.Spec

/-- DisSim Global of a query `x` and a data point `y`: minus twice the centred inner product (C40, C79). -/
noncomputable def disSimGlobal {p : ℕ} (c x y : Fin p → ℝ) : ℝ := -2 * ∑ f, (x f - c f) * (y f - c f)

end HubToolbox.Spec

namespace HubToolbox.Rounding

open HubToolbox.Ieee (double)

/-- Rounded differences of the three distances. -/
theorem dsg_core {p m : ℕ} (hp : p ≤ 2 ^ 40) (hp0 : 0 < p) {A : ℝ} (hA0 : 2 ^ (-400 : ℤ) ≤ A) (hA1 : A ≤ 2 ^ (400 : ℤ))
    {x y c c' : Fin p → ℝ} (hx : ∀ f, |x f| ≤ A) (hy : ∀ f, |y f| ≤ A) (hc : ∀ f, |c f| ≤ A) (hm : (m : ℝ) * u ≤ 1 / 2 ^ 13)
    (hcc : ∀ f, |c' f - c f| ≤ 2 * m * u * A) {z1 z2 z3 : ℝ} (h1 : |z1 - ∑ f, (x f - y f) ^ 2| ≤ tol p (4 * (p * A ^ 2)))
    (h2 : |z2 - ∑ f, (y f - c' f) ^ 2| ≤ tol p (4 * (p * A ^ 2))) (h3 : |z3 - ∑ f, (x f - c' f) ^ 2| ≤ tol p (4 * (p * A ^ 2))) :
    ∃ z, (double.rounding ℝ).sub ((double.rounding ℝ).sub (.fin z1) (.fin z2)) (.fin z3) = .fin z ∧
      |z - Spec.disSimGlobal c x y| ≤ (96 * p + 20 * m + 231) * 2 ^ (-53 : ℤ) * (p * A ^ 2) := by
  have hu := u_pos
  have hA : 0 < A := (zpow_pos two_pos _).trans_le hA0
  have hp1 : (1 : ℝ) ≤ p := by exact_mod_cast hp0
  have hpu : (p : ℝ) * u ≤ 1 / 2 ^ 13 := mu_le hp
  set P : ℝ := p * A ^ 2 with hP
  have hP0 : 0 < P := by positivity
  have hT : tol p (4 * P) = 32 * (p + 2) * u * P := by
    unfold tol
    rw [u_eq, show (2 : ℝ) ^ (-50 : ℤ) = 8 * 2 ^ (-53 : ℤ) by norm_num]
    ring
  have hu13 : u ≤ 1 / 2 ^ 13 := by nlinarith
  have hT1 : tol p (4 * P) ≤ P / 2 := by
    rw [hT]
    have : 32 * (p + 2) * u ≤ 1 / 2 := by nlinarith
    nlinarith
  rw [hT] at h1 h2 h3 hT1
  have hcA : ∀ f, |c' f| ≤ 2 * A := by
    intro f
    have := abs_add_le (c' f - c f) (c f)
    rw [sub_add_cancel] at this
    have h := hcc f
    have : 2 * (m : ℝ) * u * A ≤ A := by nlinarith
    linarith [hc f]
  have hsq : ∀ (a b : Fin p → ℝ) (k : ℝ), (∀ f, |a f - b f| ≤ k * A) → 0 ≤ k → ∑ f, (a f - b f) ^ 2 ≤ k ^ 2 * P := by
    intro a b k h hk
    calc ∑ f, (a f - b f) ^ 2 ≤ ∑ _f : Fin p, (k * A) ^ 2 := Finset.sum_le_sum fun f _ => by
            rw [← sq_abs]; exact pow_le_pow_left₀ (abs_nonneg _) (h f) 2
      _ = k ^ 2 * P := by
            rw [Finset.sum_const, Finset.card_univ, Fintype.card_fin, nsmul_eq_mul, hP]; ring
  have e1 : ∑ f, (x f - y f) ^ 2 ≤ 2 ^ 2 * P := hsq x y 2 (fun f => (abs_sub _ _).trans (by linarith [hx f, hy f])) (by norm_num)
  have e2 : ∑ f, (y f - c' f) ^ 2 ≤ 3 ^ 2 * P := hsq y c' 3 (fun f => (abs_sub _ _).trans (by linarith [hy f, hcA f])) (by norm_num)
  have e3 : ∑ f, (x f - c' f) ^ 2 ≤ 3 ^ 2 * P := hsq x c' 3 (fun f => (abs_sub _ _).trans (by linarith [hx f, hcA f])) (by norm_num)
  have n1 : 0 ≤ ∑ f, (x f - y f) ^ 2 := Finset.sum_nonneg fun f _ => sq_nonneg _
  have n2 : 0 ≤ ∑ f, (y f - c' f) ^ 2 := Finset.sum_nonneg fun f _ => sq_nonneg _
  have n3 : 0 ≤ ∑ f, (x f - c' f) ^ 2 := Finset.sum_nonneg fun f _ => sq_nonneg _
  have hmin : (2 : ℝ) ^ (-800 : ℤ) ≤ P := by
    rw [hP, show (-800 : ℤ) = -400 + -400 by norm_num, zpow_add₀ two_ne_zero, pow_two]
    have : (2 : ℝ) ^ (-400 : ℤ) * 2 ^ (-400 : ℤ) ≤ A * A := mul_le_mul hA0 hA0 (by positivity) hA.le
    nlinarith [mul_pos hA hA]
  have hmax : P ≤ 2 ^ (840 : ℤ) := by
    have h2 : A ^ 2 ≤ 2 ^ (800 : ℤ) := by
      rw [pow_two, show (800 : ℤ) = 400 + 400 by norm_num, zpow_add₀ two_ne_zero]
      exact mul_le_mul hA1 hA1 hA.le (by positivity)
    have := mul_two_zpow_le (c := (p : ℝ)) (k := 40) (by exact_mod_cast hp) (by positivity) h2
    exact this
  have b1 := abs_le.1 h1
  have b2 := abs_le.1 h2
  have b3 := abs_le.1 h3
  obtain ⟨s, hs, -, hse⟩ := Ieee.round_bound double (x := z1 - z2) (b := 10 * P) (abs_le.2 ⟨by linarith, by linarith⟩)
    (double_emin (a := -800) (by norm_num) (by linarith)) (double_emax (a := 840 + (4 : ℕ)) (by norm_num)
      (mul_two_zpow_le (by norm_num) hP0.le hmax))
  have hse' : |s - (z1 - z2)| ≤ u * (10 * P) := hse
  have bs := abs_le.1 hse'
  have huP : u * (10 * P) ≤ P := by nlinarith
  obtain ⟨z, hz, -, hze⟩ := Ieee.round_bound double (x := s - z3) (b := 21 * P) (abs_le.2 ⟨by linarith, by linarith⟩)
    (double_emin (a := -800) (by norm_num) (by linarith)) (double_emax (a := 840 + (5 : ℕ)) (by norm_num)
      (mul_two_zpow_le (by norm_num) hP0.le hmax))
  have hze' : |z - (s - z3)| ≤ u * (21 * P) := hze
  have bz := abs_le.1 hze'
  refine ⟨z, ?_, ?_⟩
  · have h1 : (double.rounding ℝ).sub (.fin z1) (.fin z2) = .fin s := by rw [← hs, sub_eq_add_neg]; rfl
    rw [h1, ← hz, sub_eq_add_neg]
    rfl
  · -- the mean
    have hmean : ∀ a : Fin p → ℝ, (∀ f, |a f| ≤ A) → |∑ f, (a f - c' f) ^ 2 - ∑ f, (a f - c f) ^ 2| ≤ 10 * m * u * P := by
      intro a ha
      rw [← Finset.sum_sub_distrib]
      refine (Finset.abs_sum_le_sum_abs _ _).trans ?_
      calc ∑ f, |(a f - c' f) ^ 2 - (a f - c f) ^ 2| ≤ ∑ _f : Fin p, 2 * m * u * A * (5 * A) := Finset.sum_le_sum fun f _ => by
              have e : (a f - c' f) ^ 2 - (a f - c f) ^ 2 = (c' f - c f) * (c f + c' f - 2 * a f) := by ring
              rw [e, abs_mul]
              refine mul_le_mul (hcc f) ?_ (abs_nonneg _) (by positivity)
              have h1 := abs_sub (c f + c' f) (2 * a f)
              have h2 := abs_add_le (c f) (c' f)
              rw [abs_mul, abs_two] at h1
              linarith [ha f, hc f, hcA f]
        _ = 10 * m * u * P := by
              rw [Finset.sum_const, Finset.card_univ, Fintype.card_fin, nsmul_eq_mul, hP]; ring
    have m2 := abs_le.1 (hmean y hy)
    have m3 := abs_le.1 (hmean x hx)
    have hex : Spec.disSimGlobal c x y = ∑ f, (x f - y f) ^ 2 - ∑ f, (y f - c f) ^ 2 - ∑ f, (x f - c f) ^ 2 := by
      unfold Spec.disSimGlobal
      rw [← Finset.sum_sub_distrib, ← Finset.sum_sub_distrib, Finset.mul_sum]
      exact Finset.sum_congr rfl fun f _ => by ring
    rw [← u_eq, hex]
    have hsplit : (96 * p + 20 * m + 231) * u * P = 3 * (32 * (p + 2) * u * P) + 2 * (10 * m * u * P) + u * (10 * P) + u * (21 * P) + 8 * (u * P) := by
      ring
    have : 0 < u * P := by positivity
    rw [hsplit]
    rw [abs_le]
    constructor <;> linarith

/-- The computed centroid. -/
theorem columnMean_near {sum : List (XR ℝ) → XR ℝ}
    (hsum : ∀ l, (∀ a ∈ l, (double.rounding ℝ).Float a) → (double.rounding ℝ).Sums l (sum l))
    {m p : ℕ} (hm0 : 0 < m) (hm : m ≤ 2 ^ 40) (Y : Fin m → Fin p → ℝ) {A : ℝ} (hA0 : 2 ^ (-400 : ℤ) ≤ A) (hA1 : A ≤ 2 ^ (400 : ℤ))
    (hY : ∀ j f, |Y j f| ≤ A) (hf : ∀ j f, double.round (Y j f) = .fin (Y j f)) (f : Fin p) :
    ∃ c, (double.rounding ℝ).columnMean sum Y f = .fin c ∧ |c - Spec.centroid Finset.univ Y f| ≤ 2 * m * u * A := by
  obtain ⟨c, h1, h2⟩ := mean_any hsum (List.ofFn (fun a => Y a f)) (by simpa using hm0) (by simpa using hm) (B := A)
    (fun x hx => by obtain ⟨a, rfl⟩ := (List.mem_ofFn' _ _).1 hx; exact hY a f) hA0 hA1
    (fun x hx => by obtain ⟨a, rfl⟩ := (List.mem_ofFn' _ _).1 hx; exact hf a f)
  refine ⟨c, h1, ?_⟩
  rw [List.sum_ofFn, List.length_ofFn] at h2
  unfold Spec.centroid
  rw [Finset.card_univ, Fintype.card_fin]
  exact h2

theorem abs_centroid_le {m p : ℕ} (hm0 : 0 < m) (Y : Fin m → Fin p → ℝ) {A : ℝ} (hY : ∀ j f, |Y j f| ≤ A) (f : Fin p) :
    |Spec.centroid Finset.univ Y f| ≤ A := by
  have hm : (0 : ℝ) < m := by exact_mod_cast hm0
  unfold Spec.centroid
  rw [Finset.card_univ, Fintype.card_fin, abs_div, abs_of_pos hm, div_le_iff₀ hm]
  refine (Finset.abs_sum_le_sum_abs _ _).trans ((Finset.sum_le_sum fun a _ => hY a f).trans ?_)
  rw [Finset.sum_const, Finset.card_univ, Fintype.card_fin, nsmul_eq_mul, mul_comm]

theorem sqNorm_le {p : ℕ} {v : Fin p → ℝ} {A : ℝ} (hv : ∀ f, |v f| ≤ 2 * A) : ∑ f, v f ^ 2 ≤ 4 * (p * A ^ 2) := by
  calc ∑ f, v f ^ 2 ≤ ∑ _f : Fin p, (2 * A) ^ 2 := Finset.sum_le_sum fun f _ => by
          rw [← sq_abs]; exact pow_le_pow_left₀ (abs_nonneg _) (hv f) 2
    _ = 4 * (p * A ^ 2) := by rw [Finset.sum_const, Finset.card_univ, Fintype.card_fin, nsmul_eq_mul]; ring

theorem sqNorm_bound {p : ℕ} (hp : p ≤ 2 ^ 40) {A : ℝ} (hA : 0 < A) (hA1 : A ≤ 2 ^ (400 : ℤ)) : 4 * (p * A ^ 2) ≤ (2 : ℝ) ^ (900 : ℤ) := by
  have h2 : A ^ 2 ≤ 2 ^ (800 : ℤ) := by
    rw [pow_two, show (800 : ℤ) = 400 + 400 by norm_num, zpow_add₀ two_ne_zero]
    exact mul_le_mul hA1 hA1 hA.le (by positivity)
  have h := mul_two_zpow_le (c := (4 * p : ℝ)) (k := 42) (by
    have : (p : ℝ) ≤ 2 ^ 40 := by exact_mod_cast hp
    linarith) (by positivity) h2
  rw [← mul_assoc]
  refine h.trans (zpow_le_zpow_right₀ (by norm_num) (by norm_num))

/-- **C267**: in double precision `dis_sim_global(X, Y)` is minus twice the inner product of the centred vectors up to
`(96 p + 20 m + 231) · 2⁻⁵³ · p A²`, for `m` data points with `p` features of absolute value up to `A`. The centroid is computed by additions in any
order; `c` is its computed value. -/
theorem C267 {sum : List (XR ℝ) → XR ℝ}
    (hsum : ∀ l, (∀ a ∈ l, (double.rounding ℝ).Float a) → (double.rounding ℝ).Sums l (sum l))
    {n m p : ℕ} (hm0 : 0 < m) (hm : m ≤ 2 ^ 40) (hp0 : 0 < p) (hp : p ≤ 2 ^ 40) (X : Fin n → Fin p → ℝ) (Y : Fin m → Fin p → ℝ)
    {A : ℝ} (hA0 : 2 ^ (-400 : ℤ) ≤ A) (hA1 : A ≤ 2 ^ (400 : ℤ)) (hX : ∀ i f, |X i f| ≤ A) (hY : ∀ j f, |Y j f| ≤ A)
    (hf : ∀ j f, double.round (Y j f) = .fin (Y j f)) :
    ∃ c : Fin p → ℝ, (∀ f, (double.rounding ℝ).columnMean sum Y f = .fin (c f)) ∧
      (∀ f, |c f - Spec.centroid Finset.univ Y f| ≤ 2 * m * 2 ^ (-53 : ℤ) * A) ∧
      ∀ (L : Products ℝ n m) (Lx : Products ℝ n 1) (Ly : Products ℝ m 1), L.Near X Y → Lx.Near X (fun _ => c) → Ly.Near Y (fun _ => c) →
        ∀ i j, ∃ z, (double.rounding ℝ).disSimGlobal L Lx Ly i j = .fin z ∧
          |z - Spec.disSimGlobal (Spec.centroid Finset.univ Y) (X i) (Y j)| ≤ (96 * p + 20 * m + 231) * 2 ^ (-53 : ℤ) * (p * A ^ 2) := by
  have hA : 0 < A := (zpow_pos two_pos _).trans_le hA0
  choose c hc1 hc2 using columnMean_near hsum hm0 hm Y hA0 hA1 hY hf
  have hmu : (m : ℝ) * u ≤ 1 / 2 ^ 13 := mu_le hm
  have hcA : ∀ f, |c f| ≤ 2 * A := fun f => by
    have := abs_add_le (c f - Spec.centroid Finset.univ Y f) (Spec.centroid Finset.univ Y f)
    rw [sub_add_cancel] at this
    have h1 : 2 * (m : ℝ) * u * A ≤ A := by nlinarith
    linarith [hc2 f, abs_centroid_le hm0 Y hY f]
  refine ⟨c, hc1, fun f => by simpa only [u_eq] using hc2 f, fun L Lx Ly hL hLx hLy i j => ?_⟩
  have hB := sqNorm_bound hp hA hA1
  have hp' : p ≤ 2 ^ 45 := hp.trans (by norm_num)
  have nX : ∀ i, ∑ f, X i f ^ 2 ≤ 4 * (p * A ^ 2) := fun i => sqNorm_le fun f => by linarith [hX i f]
  have nY : ∀ i, ∑ f, Y i f ^ 2 ≤ 4 * (p * A ^ 2) := fun i => sqNorm_le fun f => by linarith [hY i f]
  have nc : ∀ _ : Fin 1, ∑ f, c f ^ 2 ≤ 4 * (p * A ^ 2) := fun _ => sqNorm_le hcA
  obtain ⟨z1, e1, h1⟩ := sqDistances_near hp' hL hB nX nY i j
  obtain ⟨z2, e2, h2⟩ := sqDistances_near hp' hLy hB nY nc j 0
  obtain ⟨z3, e3, h3⟩ := sqDistances_near hp' hLx hB nX nc i 0
  unfold disSimGlobal
  rw [e1, e2, e3]
  exact dsg_core hp hp0 hA0 hA1 (hX i) (hY j) (abs_centroid_le hm0 Y hY) hmu hc2 h1 h2 h3

/-- **C267**, one argument: `dis_sim_global(X)`, where scikit-learn sets the self distances to zero. -/
theorem C267_self {sum : List (XR ℝ) → XR ℝ}
    (hsum : ∀ l, (∀ a ∈ l, (double.rounding ℝ).Float a) → (double.rounding ℝ).Sums l (sum l))
    {n p : ℕ} (hm : n ≤ 2 ^ 40) (hp0 : 0 < p) (hp : p ≤ 2 ^ 40) (X : Fin n → Fin p → ℝ)
    {A : ℝ} (hA0 : 2 ^ (-400 : ℤ) ≤ A) (hA1 : A ≤ 2 ^ (400 : ℤ)) (hX : ∀ i f, |X i f| ≤ A)
    (hf : ∀ j f, double.round (X j f) = .fin (X j f)) (hn0 : 0 < n) :
    ∃ c : Fin p → ℝ, (∀ f, (double.rounding ℝ).columnMean sum X f = .fin (c f)) ∧
      ∀ (L : Products ℝ n n) (Lx : Products ℝ n 1), L.Near X X → Lx.Near X (fun _ => c) →
        ∀ i j, ∃ z, (double.rounding ℝ).disSimGlobalSelf L Lx i j = .fin z ∧
          |z - Spec.disSimGlobal (Spec.centroid Finset.univ X) (X i) (X j)| ≤ (96 * p + 20 * n + 231) * 2 ^ (-53 : ℤ) * (p * A ^ 2) := by
  have hA : 0 < A := (zpow_pos two_pos _).trans_le hA0
  choose c hc1 hc2 using columnMean_near hsum hn0 hm X hA0 hA1 hX hf
  have hmu : (n : ℝ) * u ≤ 1 / 2 ^ 13 := mu_le hm
  have hcA : ∀ f, |c f| ≤ 2 * A := fun f => by
    have := abs_add_le (c f - Spec.centroid Finset.univ X f) (Spec.centroid Finset.univ X f)
    rw [sub_add_cancel] at this
    have h1 : 2 * (n : ℝ) * u * A ≤ A := by nlinarith
    linarith [hc2 f, abs_centroid_le hn0 X hX f]
  refine ⟨c, hc1, fun L Lx hL hLx i j => ?_⟩
  have hB := sqNorm_bound hp hA hA1
  have hp' : p ≤ 2 ^ 45 := hp.trans (by norm_num)
  have nX : ∀ i, ∑ f, X i f ^ 2 ≤ 4 * (p * A ^ 2) := fun i => sqNorm_le fun f => by linarith [hX i f]
  have nc : ∀ _ : Fin 1, ∑ f, c f ^ 2 ≤ 4 * (p * A ^ 2) := fun _ => sqNorm_le hcA
  obtain ⟨z1, e1, h1⟩ : ∃ z1, Np.fillDiagonal ((double.rounding ℝ).sqDistances L) (.fin 0) i j = .fin z1 ∧
      |z1 - ∑ f, (X i f - X j f) ^ 2| ≤ tol p (4 * (p * A ^ 2)) := by
    by_cases hij : i = j
    · subst hij
      refine ⟨0, by simp [Np.fillDiagonal], ?_⟩
      simp only [sub_self, ne_eq, OfNat.ofNat_ne_zero, not_false_eq_true, zero_pow, Finset.sum_const_zero, abs_zero]
      unfold tol
      positivity
    · obtain ⟨z1, e1, h1⟩ := sqDistances_near hp' hL hB nX nX i j
      exact ⟨z1, by simp [Np.fillDiagonal, Fin.val_inj, hij, e1], h1⟩
  obtain ⟨z2, e2, h2⟩ := sqDistances_near hp' hLx hB nX nc j 0
  obtain ⟨z3, e3, h3⟩ := sqDistances_near hp' hLx hB nX nc i 0
  unfold disSimGlobalSelf
  rw [e1, e2, e3]
  exact dsg_core hp hp0 hA0 hA1 (hX i) (hX j) (abs_centroid_le hn0 X hX) hmu hc2 h1 h2 h3

theorem disSimGlobal_comm {p : ℕ} (c x y : Fin p → ℝ) : Spec.disSimGlobal c x y = Spec.disSimGlobal c y x := by
  unfold Spec.disSimGlobal
  congr 1
  exact Finset.sum_congr rfl fun f _ => mul_comm _ _

/-- The points 0.4 and 0.1 on a line (the nearest doubles). -/
def line2 : Fin 2 → Fin 1 → ℚ := ![![3602879701896397 / 2 ^ 53], ![3602879701896397 / 2 ^ 55]]

/-- **C268** does not hold: for the points 0.4 and 0.1 the two entries differ, however sums are added up. The centroid is 1/4. -/
theorem C268_violated {sum : List (XR ℚ) → XR ℚ}
    (hsum : ∀ l, (∀ a ∈ l, (double.rounding ℚ).Float a) → (double.rounding ℚ).Sums l (sum l))
    (L : Products ℚ 2 2) (Lx : Products ℚ 2 1)
    (hdot : ∀ i j, (double.rounding ℚ).Sums (List.ofFn fun f => (double.rounding ℚ).mul (.fin (line2 i f)) (.fin (line2 j f))) (L.dot i j))
    (hsqX : ∀ i, (double.rounding ℚ).Sums (List.ofFn fun f => (double.rounding ℚ).mul (.fin (line2 i f)) (.fin (line2 i f))) (L.sqX i))
    (hsqY : ∀ j, (double.rounding ℚ).Sums (List.ofFn fun f => (double.rounding ℚ).mul (.fin (line2 j f)) (.fin (line2 j f))) (L.sqY j))
    (hdotc : ∀ i j, (double.rounding ℚ).Sums
      (List.ofFn fun f => (double.rounding ℚ).mul (.fin (line2 i f)) ((double.rounding ℚ).columnMean sum line2 f)) (Lx.dot i j))
    (hsqXc : ∀ i, (double.rounding ℚ).Sums (List.ofFn fun f => (double.rounding ℚ).mul (.fin (line2 i f)) (.fin (line2 i f))) (Lx.sqX i))
    (hsqYc : ∀ j, (double.rounding ℚ).Sums (List.ofFn fun f => (double.rounding ℚ).mul ((double.rounding ℚ).columnMean sum line2 f)
      ((double.rounding ℚ).columnMean sum line2 f)) (Lx.sqY j)) :
    (∀ i f, double.round (line2 i f) = .fin (line2 i f)) ∧ (double.rounding ℚ).columnMean sum line2 0 = .fin (1 / 4) ∧
    ∃ a b, (double.rounding ℚ).disSimGlobalSelf L Lx 0 1 = .fin a ∧ (double.rounding ℚ).disSimGlobalSelf L Lx 1 0 = .fin b ∧ b < a := by
  have hfl : ∀ i f, double.round (line2 i f) = .fin (line2 i f) := by decide +kernel
  have hc : (double.rounding ℚ).columnMean sum line2 0 = .fin (1 / 4) := by
    unfold columnMean
    have h := hsum ((List.ofFn (fun a => line2 a 0)).map .fin) (by
      intro a ha
      obtain ⟨q, hq, rfl⟩ := List.mem_map.1 ha
      obtain ⟨i, rfl⟩ := (List.mem_ofFn' _ _).1 hq
      exact hfl i 0)
    rw [sums_two _ _ _ _ h]
    decide +kernel
  refine ⟨hfl, hc, ?_⟩
  have hd : ∀ i j, (double.rounding ℚ).sqDistances L i j = (double.rounding ℚ).sqDistances
      (⟨fun i j => (double.rounding ℚ).mul (.fin (line2 i 0)) (.fin (line2 j 0)), fun i => (double.rounding ℚ).mul (.fin (line2 i 0)) (.fin (line2 i 0)),
        fun i => (double.rounding ℚ).mul (.fin (line2 i 0)) (.fin (line2 i 0))⟩ : Products ℚ 2 2) i j := by
    intro i j
    have e1 := hdot i j
    have e2 := hsqX i
    have e3 := hsqY j
    rw [List.ofFn_succ, List.ofFn_zero] at e1 e2 e3
    unfold sqDistances
    rw [sums_one _ _ _ e1, sums_one _ _ _ e2, sums_one _ _ _ e3]
  have hx : ∀ i, (double.rounding ℚ).sqDistances Lx i 0 = (double.rounding ℚ).sqDistances
      (⟨fun i _ => (double.rounding ℚ).mul (.fin (line2 i 0)) (.fin (1 / 4)), fun i => (double.rounding ℚ).mul (.fin (line2 i 0)) (.fin (line2 i 0)),
        fun _ => (double.rounding ℚ).mul (.fin (1 / 4)) (.fin (1 / 4))⟩ : Products ℚ 2 1) i 0 := by
    intro i
    have e1 := hdotc i 0
    have e2 := hsqXc i
    have e3 := hsqYc 0
    rw [List.ofFn_succ, List.ofFn_zero] at e1 e2 e3
    unfold sqDistances
    rw [sums_one _ _ _ e1, sums_one _ _ _ e2, sums_one _ _ _ e3, hc]
  refine ⟨6485183463413516 / 2 ^ 57, 6485183463413515 / 2 ^ 57, ?_, ?_, by norm_num⟩
  · unfold disSimGlobalSelf Np.fillDiagonal
    rw [if_neg (by decide), hd, hx, hx]
    decide +kernel
  · unfold disSimGlobalSelf Np.fillDiagonal
    rw [if_neg (by decide), hd, hx, hx]
    decide +kernel

/-- **C268**, what holds: the two entries differ by at most `(192 p + 40 n + 462) · 2⁻⁵³ · p A²`. Missing from the full claim: equality, which is
false (`C268_violated`). -/
theorem C268_partial {sum : List (XR ℝ) → XR ℝ}
    (hsum : ∀ l, (∀ a ∈ l, (double.rounding ℝ).Float a) → (double.rounding ℝ).Sums l (sum l))
    {n p : ℕ} (hm : n ≤ 2 ^ 40) (hp0 : 0 < p) (hp : p ≤ 2 ^ 40) (X : Fin n → Fin p → ℝ)
    {A : ℝ} (hA0 : 2 ^ (-400 : ℤ) ≤ A) (hA1 : A ≤ 2 ^ (400 : ℤ)) (hX : ∀ i f, |X i f| ≤ A)
    (hf : ∀ j f, double.round (X j f) = .fin (X j f)) (hn0 : 0 < n) :
    ∃ c : Fin p → ℝ, (∀ f, (double.rounding ℝ).columnMean sum X f = .fin (c f)) ∧
      ∀ (L : Products ℝ n n) (Lx : Products ℝ n 1), L.Near X X → Lx.Near X (fun _ => c) →
        ∀ i j, ∃ a b, (double.rounding ℝ).disSimGlobalSelf L Lx i j = .fin a ∧ (double.rounding ℝ).disSimGlobalSelf L Lx j i = .fin b ∧
          |a - b| ≤ (192 * p + 40 * n + 462) * 2 ^ (-53 : ℤ) * (p * A ^ 2) := by
  obtain ⟨c, hc, h⟩ := C267_self hsum hm hp0 hp X hA0 hA1 hX hf hn0
  refine ⟨c, hc, fun L Lx hL hLx i j => ?_⟩
  obtain ⟨a, ha, h1⟩ := h L Lx hL hLx i j
  obtain ⟨b, hb, h2⟩ := h L Lx hL hLx j i
  refine ⟨a, b, ha, hb, ?_⟩
  rw [disSimGlobal_comm] at h2
  rw [abs_sub_comm] at h2
  refine (abs_sub_le a _ b).trans ((add_le_add h1 h2).trans (le_of_eq ?_))
  ring

/-! ### Non-vacuity -/

/-- Products of integers, without any rounding. -/
def intProducts2 {n m p : ℕ} (Z : Fin n → Fin p → ℤ) (W : Fin m → Fin p → ℤ) : Products ℝ n m where
  dot i j := .fin ((∑ f, Z i f * W j f : ℤ) : ℝ)
  sqX i := .fin ((∑ f, Z i f * Z i f : ℤ) : ℝ)
  sqY j := .fin ((∑ f, W j f * W j f : ℤ) : ℝ)

theorem intProducts2_near {n m p : ℕ} (Z : Fin n → Fin p → ℤ) (W : Fin m → Fin p → ℤ) (h : ∀ i j, |∑ f, Z i f * W j f| ≤ 2 ^ 53)
    (hZ : ∀ i, |∑ f, Z i f * Z i f| ≤ 2 ^ 53) (hW : ∀ i, |∑ f, W i f * W i f| ≤ 2 ^ 53) :
    (intProducts2 Z W).Near (fun i f => (Z i f : ℝ)) (fun i f => (W i f : ℝ)) := by
  have key : ∀ v w : Fin p → ℤ, |∑ f, v f * w f| ≤ 2 ^ 53 → ∃ z, (XR.fin ((∑ f, v f * w f : ℤ) : ℝ)) = .fin z ∧ double.round z = .fin z ∧
      |z - ∑ f, (v f : ℝ) * (w f : ℝ)| ≤ ((1 + u) ^ p - 1) * ∑ f, |(v f : ℝ) * (w f : ℝ)| := by
    intro v w hvw
    refine ⟨_, rfl, Ieee.round_intCast double hvw (by decide), ?_⟩
    push_cast
    rw [sub_self, abs_zero]
    exact mul_nonneg (sub_nonneg.2 (one_le_pow₀ (by linarith [u_pos]))) (Finset.sum_nonneg fun f _ => abs_nonneg _)
  exact ⟨fun i j => key _ _ (h i j), fun i => key _ _ (hZ i), fun j => key _ _ (hW j)⟩

/-- Three vectors in the plane with centroid (1, 1). -/
def meanZ : Fin 3 → Fin 2 → ℤ := ![![3, 4], ![1, 0], ![-1, -1]]

theorem meanZ_float (i : Fin 3) (f : Fin 2) : double.round (meanZ i f : ℝ) = .fin (meanZ i f : ℝ) :=
  Ieee.round_intCast double (show |meanZ i f| ≤ 2 ^ 53 by revert i f; decide) (by decide)

theorem meanZ_mean (f : Fin 2) :
    (double.rounding ℝ).columnMean (fun l => l.foldl (double.rounding ℝ).add (.fin 0)) (fun i f => (meanZ i f : ℝ)) f = .fin 1 := by
  unfold columnMean
  have e : (List.ofFn (fun a => (meanZ a f : ℝ))).map XR.fin =
      (List.ofFn (fun a => meanZ a f)).map (fun z : ℤ => .fin ((z : ℝ) * 2 ^ (0 : ℤ))) := by
    simp [List.map_ofFn, Function.comp_def]
  have h := sums_foldl (double.rounding ℝ) ((List.ofFn (fun a => (meanZ a f : ℝ))).map XR.fin) (by
    intro a ha
    obtain ⟨q, hq, rfl⟩ := List.mem_map.1 ha
    obtain ⟨i, rfl⟩ := (List.mem_ofFn' _ _).1 hq
    exact meanZ_float i f)
  rw [e] at h ⊢
  beta_reduce
  rw [Ieee.sum_grid double h (by clear h e; revert f; decide) (by norm_num [double]) (by norm_num [double]), List.length_ofFn,
    div_ofNat _ (by norm_num) (by norm_num)]
  have : ((List.ofFn (fun a => meanZ a f)).sum : ℝ) * 2 ^ (0 : ℤ) / ((3 : ℕ) : ℝ) = ((1 : ℤ) : ℝ) := by
    have : (List.ofFn (fun a => meanZ a f)).sum = 3 := by clear h e; revert f; decide
    rw [this]
    norm_num
  rw [this, Ieee.round_intCast double (show |(1 : ℤ)| ≤ 2 ^ double.p by decide) (by decide), Int.cast_one]

/-- The hypotheses of C267 hold for three vectors and two queries. -/
example : ∃ z, (double.rounding ℝ).disSimGlobal (intProducts2 planeZ meanZ) (intProducts2 planeZ (fun _ : Fin 1 => fun _ => 1))
    (intProducts2 meanZ (fun _ : Fin 1 => fun _ => 1)) 0 1 = .fin z ∧
    |z - Spec.disSimGlobal (Spec.centroid Finset.univ (fun i f => (meanZ i f : ℝ))) (fun f => (planeZ 0 f : ℝ)) (fun f => (meanZ 1 f : ℝ))| ≤
      (96 * (2 : ℕ) + 20 * (3 : ℕ) + 231) * 2 ^ (-53 : ℤ) * ((2 : ℕ) * 4 ^ 2) := by
  obtain ⟨c, hc, -, h⟩ := C267 (fun l hl => sums_foldl (double.rounding ℝ) l hl) (by norm_num) (by norm_num) (by norm_num) (by norm_num)
    (fun i f => (planeZ i f : ℝ)) (fun i f => (meanZ i f : ℝ)) (A := 4)
    ((two_zpow_le (show (-400 : ℤ) ≤ 2 by norm_num)).trans_eq (by norm_num))
    (le_trans (by norm_num) (two_zpow_le (show (2 : ℤ) ≤ 400 by norm_num)))
    (fun i f => by have : |planeZ i f| ≤ 4 := by revert i f; decide
                   exact_mod_cast this)
    (fun i f => by have : |meanZ i f| ≤ 4 := by revert i f; decide
                   exact_mod_cast this) meanZ_float
  have hc1 : c = fun _ => ((1 : ℤ) : ℝ) := by
    funext f
    have := (hc f).symm.trans (meanZ_mean f)
    rw [Int.cast_one]
    exact XR.fin.inj this
  subst hc1
  exact h _ _ _ (intProducts2_near planeZ meanZ (by decide) (by decide) (by decide))
    (intProducts2_near planeZ (fun _ : Fin 1 => fun _ => 1) (by decide) (by decide) (by decide))
    (intProducts2_near meanZ (fun _ : Fin 1 => fun _ => 1) (by decide) (by decide) (by decide)) 0 1

/-- The hypotheses of `C268_violated` hold for products which are rounded. -/
example := C268_violated (fun l hl => sums_foldl (double.rounding ℚ) l hl)
  ⟨fun i j => (double.rounding ℚ).mul (.fin (line2 i 0)) (.fin (line2 j 0)), fun i => (double.rounding ℚ).mul (.fin (line2 i 0)) (.fin (line2 i 0)),
    fun i => (double.rounding ℚ).mul (.fin (line2 i 0)) (.fin (line2 i 0))⟩
  ⟨fun i _ => _, fun i => (double.rounding ℚ).mul (.fin (line2 i 0)) (.fin (line2 i 0)), fun _ => _⟩
  (fun _ _ => Or.inr ⟨.leaf _, List.Perm.refl _, rfl⟩) (fun _ => Or.inr ⟨.leaf _, List.Perm.refl _, rfl⟩)
  (fun _ => Or.inr ⟨.leaf _, List.Perm.refl _, rfl⟩) (fun _ _ => Or.inr ⟨.leaf _, List.Perm.refl _, rfl⟩)
  (fun _ => Or.inr ⟨.leaf _, List.Perm.refl _, rfl⟩) (fun _ => Or.inr ⟨.leaf _, List.Perm.refl _, rfl⟩)

end HubToolbox.Rounding
