import Verif.Rounding.F1Model
import Verif.Rounding.RPrecProps
import Verif.Knn.FMeasure

/-!
# C287: F-measures in double precision
-/

set_option autoImplicit false

namespace HubToolbox.Rounding

open HubToolbox Ieee Knn

/-! ### Relative errors in units of rounding -/

/-- `x` is a positive number up to `k` units of rounding. -/
structure Rel (k x X : ℝ) : Prop where
  pos : 0 < X
  near : |x - X| ≤ k * u * X
  nonneg : 0 ≤ k
  small : k ≤ 100

namespace Rel
variable {k k' x X y Y : ℝ}

theorem mono (h : Rel k x X) (hk : k ≤ k') (h' : k' ≤ 100) : Rel k' x X := by
  have := u_pos
  have := h.pos
  exact ⟨h.pos, h.near.trans (mul_le_mul_of_nonneg_right (mul_le_mul_of_nonneg_right hk u_pos.le) h.pos.le), h.nonneg.trans hk, h'⟩

theorem exact (h : 0 < x) : Rel 0 x x := ⟨h, by simp, le_rfl, by norm_num⟩

theorem ku (h : Rel k x X) : 0 ≤ k * u ∧ k * u ≤ 1 / 10000 := by
  have hu := u_pos
  have h50 := u_le_50
  norm_num at h50
  refine ⟨mul_nonneg h.nonneg hu.le, ?_⟩
  have := mul_le_mul h.small h50 hu.le (by norm_num)
  refine this.trans ?_
  norm_num

theorem bounds (h : Rel k x X) : X / 2 ≤ x ∧ x ≤ 2 * X := by
  have h1 := abs_le.1 h.near
  have h2 := mul_le_mul_of_nonneg_right h.ku.2 h.pos.le
  have := h.pos
  constructor <;> linarith

theorem round (h : Rel k x X) (h0 : 1 / 2 ^ 99 ≤ X) (h1 : X ≤ 2 ^ 59) (hk : k ≤ 98) : ∃ z, double.round x = .fin z ∧ double.round z = .fin z ∧ Rel (k + 1001 / 1000) z X := by
  have hu := u_pos
  have hb := h.bounds
  have hp := h.pos
  have hx : 0 < x := by linarith
  obtain ⟨z, z1, z2, z3⟩ := rel_moderate (x := x) (Or.inr (by
    rw [abs_of_pos hx]
    have : (1 : ℝ) / 2 ^ 100 = 1 / 2 ^ 99 / 2 := by norm_num
    linarith)) (by
    rw [abs_of_pos hx]
    have : (2 : ℝ) ^ 60 = 2 * 2 ^ 59 := by norm_num
    linarith)
  rw [abs_of_pos hx] at z3
  refine ⟨z, z1, z2, hp, ?_, by linarith [h.nonneg], by linarith⟩
  have h2 := abs_le.1 h.near
  have h3 := mul_le_mul_of_nonneg_right h.ku.2 hp.le
  have h4 : u * x ≤ u * (10001 / 10000 * X) := mul_le_mul_of_nonneg_left (by linarith) hu.le
  have h5 := abs_le.1 (z3.trans h4)
  have h6 : 0 ≤ u * X := by positivity
  rw [abs_le]
  constructor <;> linarith

theorem mul (h : Rel k x X) (h' : Rel k' y Y) (hk : k + k' ≤ 99) : Rel (k + k' + 1 / 1000) (x * y) (X * Y) := by
  have hu := u_pos
  have hX := h.pos
  have hY := h'.pos
  refine ⟨mul_pos hX hY, ?_, by linarith [h.nonneg, h'.nonneg], by linarith⟩
  have e : x * y - X * Y = x * (y - Y) + (x - X) * Y := by ring
  rw [e]
  refine (abs_add_le _ _).trans ?_
  rw [abs_mul, abs_mul, abs_of_pos hY]
  have h2 := abs_le.1 h.near
  have hx : |x| ≤ (1 + k * u) * X := by
    rw [abs_le]
    have := h.bounds
    have := mul_nonneg h.ku.1 hX.le
    constructor <;> linarith
  have h3 : |x| * |y - Y| ≤ (1 + k * u) * X * (k' * u * Y) := mul_le_mul hx h'.near (abs_nonneg _) (mul_nonneg (by linarith [h.ku.1]) hX.le)
  have h4 : |x - X| * Y ≤ k * u * X * Y := mul_le_mul_of_nonneg_right h.near hY.le
  have hXY : 0 < X * Y := mul_pos hX hY
  have h5 : k * u * (k' * u) * (X * Y) ≤ 1 / 1000 * u * (X * Y) := by
    refine mul_le_mul_of_nonneg_right ?_ hXY.le
    have h6 : k * u * k' ≤ 1 / 100000 * 100 := by
      refine mul_le_mul ?_ h'.small h'.nonneg (by norm_num)
      have h50 := u_le_50
      norm_num at h50
      have := mul_le_mul h.small h50 hu.le (by norm_num)
      refine this.trans ?_
      norm_num
    have := mul_le_mul_of_nonneg_right h6 hu.le
    linarith
  linarith

theorem inv (h : Rel k x X) (hk : k ≤ 99) : Rel (k + 1 / 1000) (1 / x) (1 / X) := by
  have hu := u_pos
  have hX := h.pos
  have hx : 0 < x := by linarith [h.bounds.1]
  refine ⟨by positivity, ?_, by linarith [h.nonneg], by linarith⟩
  have e : 1 / x - 1 / X = (X - x) / x * (1 / X) := by field_simp
  rw [e, abs_mul, abs_of_pos (by positivity : 0 < 1 / X)]
  refine mul_le_mul_of_nonneg_right ?_ (by positivity)
  rw [abs_div, abs_of_pos hx, div_le_iff₀ hx, abs_sub_comm]
  refine h.near.trans ?_
  have h2 := abs_le.1 h.near
  have h3 : (1 - k * u) * X ≤ x := by linarith
  have h4 : (k + 1 / 1000) * u * ((1 - k * u) * X) ≤ (k + 1 / 1000) * u * x := mul_le_mul_of_nonneg_left h3 (mul_nonneg (by linarith [h.nonneg]) hu.le)
  refine le_trans ?_ h4
  have h5 : (k + 1 / 1000) * (k * u) ≤ 1 / 1000 := by
    have h50 := u_le_50
    norm_num at h50
    have h6 : k * u ≤ 100 * (1 / 1125899906842624) := mul_le_mul h.small h50 hu.le (by norm_num)
    have h7 : (k + 1 / 1000) * (k * u) ≤ 101 * (100 * (1 / 1125899906842624)) := mul_le_mul (by linarith) h6 h.ku.1 (by norm_num)
    refine h7.trans ?_
    norm_num
  have h8 : k ≤ (k + 1 / 1000) * (1 - k * u) := by linarith
  have h9 := mul_le_mul_of_nonneg_right h8 (mul_pos hu hX).le
  linarith

theorem div (h : Rel k x X) (h' : Rel k' y Y) (hk : k + k' ≤ 98) : Rel (k + k' + 1 / 500) (x / y) (X / Y) := by
  have := h.mul (h'.inv (by linarith [h.nonneg])) (by linarith)
  rw [mul_one_div, mul_one_div] at this
  exact this.mono (by linarith) (by linarith)

theorem add (h : Rel k x X) (h' : Rel k y Y) : Rel k (x + y) (X + Y) := by
  refine ⟨add_pos h.pos h'.pos, ?_, h.nonneg, h.small⟩
  have h1 := abs_le.1 h.near
  have h2 := abs_le.1 h'.near
  rw [abs_le]
  constructor <;> linarith

end Rel

/-! ### One confusion matrix -/

/-- The F-measure. -/
theorem f1_near (cm : Fin 2 → Fin 2 → ℕ) (hN : cm 1 1 + cm 0 1 + cm 1 0 ≤ 2 ^ 40) (h0 : cm 1 1 ≠ 0) :
    ∃ z, (double.rounding ℝ).f1Score cm = .fin z ∧ double.round z = .fin z ∧ Rel 8 z (Knn.f1Score cm) := by
  have ha : (1 : ℝ) ≤ cm 1 1 := by exact_mod_cast Nat.pos_of_ne_zero h0
  have hb : (0 : ℝ) ≤ cm 0 1 := Nat.cast_nonneg _
  have hc : (0 : ℝ) ≤ cm 1 0 := Nat.cast_nonneg _
  have hN' : (cm 1 1 : ℝ) + cm 0 1 + cm 1 0 ≤ 1099511627776 := by exact_mod_cast hN
  have hp : 0 < (cm 1 1 : ℝ) + cm 0 1 := by linarith
  have hr : 0 < (cm 1 1 : ℝ) + cm 1 0 := by linarith
  have hP0 : 1 / 1099511627776 ≤ (cm 1 1 : ℝ) / (cm 1 1 + cm 0 1) := by
    rw [div_le_div_iff₀ (by norm_num) hp]
    linarith
  have hR0 : 1 / 1099511627776 ≤ (cm 1 1 : ℝ) / (cm 1 1 + cm 1 0) := by
    rw [div_le_div_iff₀ (by norm_num) hr]
    linarith
  have hP1 : (cm 1 1 : ℝ) / (cm 1 1 + cm 0 1) ≤ 1 := by
    rw [div_le_one hp]
    linarith
  have hR1 : (cm 1 1 : ℝ) / (cm 1 1 + cm 1 0) ≤ 1 := by
    rw [div_le_one hr]
    linarith
  obtain ⟨P, hP⟩ : ∃ P, P = (cm 1 1 : ℝ) / (cm 1 1 + cm 0 1) := ⟨_, rfl⟩
  obtain ⟨R, hR⟩ : ∃ R, R = (cm 1 1 : ℝ) / (cm 1 1 + cm 1 0) := ⟨_, rfl⟩
  rw [← hP] at hP0 hP1
  rw [← hR] at hR0 hR1
  have hPp : 0 < P := lt_of_lt_of_le (by norm_num) hP0
  have hRp : 0 < R := lt_of_lt_of_le (by norm_num) hR0
  have e1 : (double.rounding ℝ).div ((double.rounding ℝ).ofNat (cm 1 1)) ((double.rounding ℝ).ofNat (cm 1 1 + cm 0 1)) = double.round P := by
    rw [quot_nat (by omega) (by omega) (by omega), hP]
    push_cast
    rfl
  have e2 : (double.rounding ℝ).div ((double.rounding ℝ).ofNat (cm 1 1)) ((double.rounding ℝ).ofNat (cm 1 1 + cm 1 0)) = double.round R := by
    rw [quot_nat (by omega) (by omega) (by omega), hR]
    push_cast
    rfl
  obtain ⟨p, p1, p2, p3⟩ := (Rel.exact hPp).round (le_trans (by norm_num) hP0) (hP1.trans (by norm_num)) (by norm_num)
  obtain ⟨r, r1, r2, r3⟩ := (Rel.exact hRp).round (le_trans (by norm_num) hR0) (hR1.trans (by norm_num)) (by norm_num)
  norm_num at p3 r3
  obtain ⟨t, t1, t2, t3⟩ := ((Rel.exact (x := 2) two_pos).mul p3 (by norm_num)).round (X := 2 * P) (by
    refine le_trans ?_ (show 2 * (1 / 1099511627776) ≤ 2 * P by linarith)
    norm_num) ((show 2 * P ≤ 2 by linarith).trans (by norm_num)) (by norm_num)
  norm_num at t3
  have hPR : 1 / 1099511627776 * (1 / 1099511627776) ≤ P * R := mul_le_mul hP0 hR0 (by norm_num) hPp.le
  have hPR1 : P * R ≤ 1 * 1 := mul_le_mul hP1 hR1 hRp.le (by norm_num)
  obtain ⟨s, s1, s2, s3⟩ := (t3.mul r3 (by norm_num)).round (X := 2 * P * R) (by
    refine le_trans ?_ (show 2 * (1 / 1099511627776 * (1 / 1099511627776)) ≤ 2 * P * R by linarith)
    norm_num) ((show 2 * P * R ≤ 2 by linarith).trans (by norm_num)) (by norm_num)
  norm_num at s3
  obtain ⟨d, d1, d2, d3⟩ := (p3.add r3).round (X := P + R) (le_trans (by norm_num) (show 1 / 1099511627776 ≤ P + R by linarith))
    ((show P + R ≤ 2 by linarith).trans (by norm_num)) (by norm_num)
  norm_num at d3
  have hD : 0 < P + R := by linarith
  obtain ⟨z, z1, z2, z3⟩ := (s3.div d3 (by norm_num)).round (X := 2 * P * R / (P + R)) (by
    rw [le_div_iff₀ hD]
    refine le_trans ?_ (show 2 * (1 / 1099511627776 * (1 / 1099511627776)) ≤ 2 * P * R by linarith)
    have : (1 : ℝ) / 2 ^ 99 * (P + R) ≤ 1 / 2 ^ 99 * 2 := mul_le_mul_of_nonneg_left (by linarith) (by norm_num)
    refine this.trans ?_
    norm_num) (by
    rw [div_le_iff₀ hD]
    have h1 : 2 * P * R ≤ 2 * P * 1 := mul_le_mul_of_nonneg_left hR1 (by linarith)
    have h2 : (2 : ℝ) * (P + R) ≤ 2 ^ 59 * (P + R) := mul_le_mul_of_nonneg_right (by norm_num) hD.le
    linarith) (by norm_num)
  norm_num at z3
  have ef : Knn.f1Score cm = 2 * P * R / (P + R) := by
    unfold Knn.f1Score
    simp only [h0, if_false]
    rw [hP, hR]
  refine ⟨z, ?_, z2, ?_⟩
  · unfold Rounding.f1Score
    rw [if_neg h0]
    simp only
    rw [e1, e2, p1, r1]
    have m1 : (double.rounding ℝ).mul (.fin 2) (.fin p) = .fin t := t1
    have m2 : (double.rounding ℝ).mul (.fin t) (.fin r) = .fin s := s1
    have m3 : (double.rounding ℝ).add (.fin p) (.fin r) = .fin d := d1
    rw [m1, m2, m3, ← z1]
    have hd : d ≠ 0 := by
      have := d3.bounds
      intro h
      linarith
    exact congrArg (double.rounding ℝ).up (div_fin s hd)
  · rw [ef]
    exact z3.mono (by norm_num) (by norm_num)

/-- Perfect classification. -/
theorem f1_perfect (cm : Fin 2 → Fin 2 → ℕ) (hN : cm 1 1 ≤ 2 ^ 40) (h0 : cm 1 1 ≠ 0) (h1 : cm 0 1 = 0) (h2 : cm 1 0 = 0) : (double.rounding ℝ).f1Score cm = .fin 1 := by
  have hne : (cm 1 1 : ℝ) ≠ 0 := by exact_mod_cast h0
  have two : double.round (2 : ℝ) = .fin 2 := by
    have := ofNat_exact (a := 2) (by norm_num)
    exact_mod_cast this
  have e1 : (double.rounding ℝ).div ((double.rounding ℝ).ofNat (cm 1 1)) ((double.rounding ℝ).ofNat (cm 1 1)) = .fin 1 := by
    rw [quot_nat (by omega) (by omega) h0, div_self hne]
    exact (double.rounding ℝ).one
  unfold Rounding.f1Score
  rw [if_neg h0, h1, h2]
  simp only [add_zero]
  rw [e1]
  have m1 : (double.rounding ℝ).mul (.fin 2) (.fin 1) = .fin 2 := by
    rw [← two, show (2 : ℝ) = 2 * 1 by norm_num]
    rw [mul_one, two]
    exact (congrArg (double.rounding ℝ).up (show XR.mul (.fin (2 : ℝ)) (.fin 1) = .fin 2 by simp [XR.mul])).trans two
  have m2 : (double.rounding ℝ).add (.fin 1) (.fin 1) = .fin 2 := 
    (congrArg (double.rounding ℝ).up (show XR.add (.fin (1 : ℝ)) (.fin 1) = .fin 2 by simp only [XR.add]; norm_num)).trans two
  rw [m1, m1, m2]
  refine (congrArg (double.rounding ℝ).up (div_fin 2 two_ne_zero)).trans ?_
  rw [div_self two_ne_zero]
  exact (double.rounding ℝ).one

/-- **C287** (one class): the F-measure in double precision is in the unit interval with a relative error of at most `8 · 2⁻⁵³`; it is zero exactly without true
positives, and one exactly for a perfect classification. -/
theorem C287_score (cm : Fin 2 → Fin 2 → ℕ) (hN : cm 1 1 + cm 0 1 + cm 1 0 ≤ 2 ^ 40) : ∃ z : ℝ, (double.rounding ℝ).f1Score cm = .fin z ∧ double.round z = .fin z ∧
    0 ≤ z ∧ z ≤ 1 ∧ |z - Knn.f1Score cm| ≤ 8 * (1 / 2 ^ 53) * Knn.f1Score cm ∧ (z = 0 ↔ cm 1 1 = 0) ∧ (z = 1 ↔ 0 < cm 1 1 ∧ cm 0 1 = 0 ∧ cm 1 0 = 0) := by
  have hu' : u = 1 / 2 ^ 53 := by rw [u_eq]; norm_num
  rw [← hu']
  have hu := u_pos
  by_cases h0 : cm 1 1 = 0
  · refine ⟨0, ?_, (double.rounding ℝ).zero, le_rfl, zero_le_one, ?_, ?_, ?_⟩
    · unfold Rounding.f1Score
      rw [if_pos h0]
    · rw [C47_no_true_positive cm h0]
      simp
    · simp [h0]
    · simp [h0]
  · obtain ⟨z, z1, z2, z3⟩ := f1_near cm hN h0
    have hb := z3.bounds
    have hp := z3.pos
    have hz : 0 < z := by linarith
    by_cases hperf : cm 0 1 = 0 ∧ cm 1 0 = 0
    · have : z = 1 := XR.fin.inj (z1.symm.trans (f1_perfect cm (by omega) h0 hperf.1 hperf.2))
      exact ⟨z, z1, z2, hz.le, this.le, z3.near, ⟨fun h => absurd h hz.ne', fun h => absurd h h0⟩, fun _ => ⟨Nat.pos_of_ne_zero h0, hperf⟩, fun _ => this⟩
    · have hlt : z < 1 := by
        have ha : (1 : ℝ) ≤ cm 1 1 := by exact_mod_cast Nat.pos_of_ne_zero h0
        have hbc : (1 : ℝ) ≤ (cm 0 1 : ℝ) + cm 1 0 := by
          have : 1 ≤ cm 0 1 + cm 1 0 := by omega
          exact_mod_cast this
        have hN' : (cm 1 1 : ℝ) + cm 0 1 + cm 1 0 ≤ 1099511627776 := by exact_mod_cast hN
        have hf : Knn.f1Score (K := ℝ) cm ≤ 1 - 1 / 2199023255552 := by
          rw [C47_dice cm (by omega), div_le_iff₀ (by linarith)]
          linarith
        have h1 := (abs_le.1 z3.near).2
        have h2 : 8 * u * Knn.f1Score (K := ℝ) cm ≤ 8 * u * 1 := mul_le_mul_of_nonneg_left (by linarith) (by linarith)
        have h3 : 8 * u * 1 < 1 / 2199023255552 := by rw [u_eq]; norm_num
        linarith
      exact ⟨z, z1, z2, hz.le, hlt.le, z3.near, ⟨fun h => absurd h hz.ne', fun h => absurd h h0⟩, fun h => absurd h hlt.ne, fun h => absurd h.2 hperf⟩

/-- **C287** (micro average): as for one class. -/
theorem C287_micro (cms : List (Fin 2 → Fin 2 → ℕ)) (hN : (cms.map (fun cm => cm 1 1 + cm 0 1 + cm 1 0)).sum ≤ 2 ^ 40) : ∃ z : ℝ,
    (double.rounding ℝ).f1Micro cms = .fin z ∧ 0 ≤ z ∧ z ≤ 1 ∧ |z - Knn.f1Micro cms| ≤ 8 * (1 / 2 ^ 53) * Knn.f1Micro cms ∧
    (z = 1 ↔ (∃ cm ∈ cms, 0 < cm 1 1) ∧ ∀ cm ∈ cms, cm 0 1 = 0 ∧ cm 1 0 = 0) := by
  obtain ⟨z, z1, -, z2, z3, z4, -, z5⟩ := C287_score (fun a b => (cms.map (fun cm => cm a b)).sum) (by
    simp only [← List.sum_map_add]
    exact hN)
  refine ⟨z, z1, z2, z3, z4, z5.trans ?_⟩
  simp only [List.sum_eq_zero_iff, Nat.pos_iff_ne_zero, ne_eq, List.mem_map, forall_exists_index, and_imp, forall_apply_eq_imp_iff₂]
  push Not
  constructor
  · rintro ⟨⟨cm, hcm, h⟩, h1, h2⟩
    exact ⟨⟨cm, hcm, h⟩, fun cm hcm => ⟨h1 cm hcm, h2 cm hcm⟩⟩
  · rintro ⟨⟨cm, hcm, h⟩, h1⟩
    exact ⟨⟨cm, hcm, h⟩, fun cm hcm => (h1 cm hcm).1, fun cm hcm => (h1 cm hcm).2⟩

section
variable (cms : List (Fin 2 → Fin 2 → ℕ)) (sum : List (XR ℝ) → XR ℝ)
  (hsum : ∀ l, (∀ a ∈ l, (double.rounding ℝ).Float a) → (double.rounding ℝ).Sums l (sum l)) (hlen : cms.length ≤ 2 ^ 25)
  (hN : ∀ cm ∈ cms, cm 1 1 + cm 0 1 + cm 1 0 ≤ 2 ^ 24)
include hsum hlen hN

omit hsum hlen in
theorem f1_size (cm : Fin 2 → Fin 2 → ℕ) (hcm : cm ∈ cms) : Knn.f1Score (K := ℝ) cm = 0 ∧ cm 1 1 = 0 ∨ 1 / 2 ^ 25 ≤ Knn.f1Score (K := ℝ) cm ∧ 1 ≤ cm 1 1 := by
  by_cases h0 : cm 1 1 = 0
  · exact Or.inl ⟨C47_no_true_positive cm h0, h0⟩
  · right
    refine ⟨?_, Nat.pos_of_ne_zero h0⟩
    have ha : (1 : ℝ) ≤ cm 1 1 := by exact_mod_cast Nat.pos_of_ne_zero h0
    have hb : (0 : ℝ) ≤ cm 0 1 := Nat.cast_nonneg _
    have hc : (0 : ℝ) ≤ cm 1 0 := Nat.cast_nonneg _
    have hN' : (cm 1 1 : ℝ) + cm 0 1 + cm 1 0 ≤ 16777216 := by exact_mod_cast hN cm hcm
    rw [C47_dice cm (by omega), div_le_div_iff₀ (by norm_num) (by linarith)]
    norm_num
    linarith

/-- **C287** (macro average): in the unit interval, with a relative error of at most `(2 L + 10) · 2⁻⁵³` for `L` classes. -/
theorem C287_macro (h0 : cms ≠ []) : ∃ v z : ℝ, Knn.f1Macro cms = .fin v ∧ (double.rounding ℝ).f1Macro sum cms = .fin z ∧ 0 ≤ z ∧ z ≤ 1 ∧
    |z - v| ≤ (2 * cms.length + 10) * (1 / 2 ^ 53) * v := by
  have hu' : u = 1 / 2 ^ 53 := by rw [u_eq]; norm_num
  rw [← hu']
  have hu := u_pos
  have h50 := u_le_50
  norm_num at h50
  have hl : 0 < cms.length := List.length_pos_iff.2 h0
  have hitem : ∀ cm ∈ cms, ∃ z : ℝ, (double.rounding ℝ).f1Score cm = .fin z ∧ double.round z = .fin z ∧ 0 ≤ z ∧ z ≤ 1 ∧ |z - Knn.f1Score cm| ≤ 8 * u * Knn.f1Score cm := by
    intro cm hcm
    obtain ⟨z, z1, z2, z3, z4, z5, -⟩ := C287_score cm ((hN cm hcm).trans (by norm_num))
    rw [← hu'] at z5
    exact ⟨z, z1, z2, z3, z4, z5⟩
  choose! f f1 f2 f3 f4 f5 using hitem
  have el : cms.map (double.rounding ℝ).f1Score = cms.map fun cm => .fin (f cm) := List.map_congr_left fun cm h => f1 cm h
  have hs := hsum (cms.map fun cm => .fin (f cm)) (by
    intro a ha
    obtain ⟨cm, hcm, rfl⟩ := List.mem_map.1 ha
    exact f2 cm hcm)
  have hcard : (cms.map fun _ => (1 : ℕ)).sum = cms.length := by simp
  obtain ⟨m, m1, m2, m3⟩ := quot_unit (b := fun _ => 1) hs (fun cm h => ⟨f3 cm h, by rw [Nat.cast_one]; exact f4 cm h⟩) (by rw [hcard]; exact hl)
    (by rw [hcard]; exact hlen.trans (by norm_num))
  rw [hcard] at m1
  obtain ⟨r, r1, r2⟩ := quot_error (δ := 8 * u) (v := fun cm => Knn.f1Score (K := ℝ) cm) (fun cm h => f2 cm h) (fun cm h => by
    have := C47_range (K := ℝ) cm
    exact ⟨this.1, this.2.trans (by norm_num), (f1_size cms hN cm h).imp (fun h => h.1) fun h => h.1⟩) (fun cm h => f5 cm h) (by linarith) (by linarith)
    hl hlen hl (hlen.trans (by norm_num)) hs
  refine ⟨(cms.map fun cm => Knn.f1Score (K := ℝ) cm).sum / cms.length, m, ?_, ?_, m2, m3, ?_⟩
  · unfold Knn.f1Macro
    rw [if_neg hl.ne']
  · unfold Rounding.f1Macro
    rw [el]
    exact m1
  · rw [← XR.fin.inj (r1.symm.trans m1)]
    refine r2.trans_eq ?_
    ring

/-- **C287** (weighted average): raises exactly without positive items; otherwise in the unit interval, with a relative error of at most `(2 L + 12) · 2⁻⁵³` for
`L` classes. -/
theorem C287_weighted : (Knn.f1Weighted (K := ℝ) cms = .error .zeroDivisionError ∧ (double.rounding ℝ).f1Weighted sum cms = .error .zeroDivisionError) ∨
    ∃ v z : ℝ, Knn.f1Weighted cms = .ok v ∧ (double.rounding ℝ).f1Weighted sum cms = .ok (.fin z) ∧ 0 ≤ z ∧ z ≤ 1 ∧
      |z - v| ≤ (2 * cms.length + 12) * (1 / 2 ^ 53) * v := by
  have hu' : u = 1 / 2 ^ 53 := by rw [u_eq]; norm_num
  rw [← hu']
  have hu := u_pos
  have h50 := u_le_50
  norm_num at h50
  have hw24 : ∀ cm ∈ cms, cm 1 0 + cm 1 1 ≤ 2 ^ 24 := fun cm hcm => by have := hN cm hcm; omega
  have hW : (cms.map fun cm => cm 1 0 + cm 1 1).sum ≤ 2 ^ 50 := by
    have := List.sum_le_card_nsmul (cms.map fun cm => cm 1 0 + cm 1 1) (2 ^ 24) (by
      intro x hx
      obtain ⟨cm, hcm, rfl⟩ := List.mem_map.1 hx
      exact hw24 cm hcm)
    rw [List.length_map, smul_eq_mul] at this
    exact this.trans ((Nat.mul_le_mul_right _ hlen).trans (by norm_num))
  have eR : ∀ cm ∈ cms, (double.rounding ℝ).ofNat (cm 1 0 + cm 1 1) = .fin ((cm 1 0 + cm 1 1 : ℕ) : ℝ) := fun cm h => ofNat_exact ((hw24 cm h).trans (by norm_num))
  have eRl : (cms.map fun cm => (double.rounding ℝ).ofNat (cm 1 0 + cm 1 1)) = cms.map fun cm => .fin ((cm 1 0 + cm 1 1 : ℕ) : ℝ) := List.map_congr_left fun cm h => eR cm h
  have hsR := hsum (cms.map fun cm => .fin ((cm 1 0 + cm 1 1 : ℕ) : ℝ)) (by
    intro a ha
    obtain ⟨cm, hcm, rfl⟩ := List.mem_map.1 ha
    exact eR cm hcm)
  have hden := sum_nat (b := fun cm : Fin 2 → Fin 2 → ℕ => cm 1 0 + cm 1 1) hsR (hW.trans (by norm_num))
  by_cases hz : (cms.map fun cm => cm 1 0 + cm 1 1).sum = 0
  · left
    constructor
    · unfold Knn.f1Weighted
      simp only
      rw [if_pos hz]
    · unfold Rounding.f1Weighted
      simp only
      rw [eRl, hden, hz, Nat.cast_zero, if_pos rfl]
  right
  have hl : 0 < cms.length := by
    rcases cms with _ | ⟨a, t⟩
    · exact absurd rfl hz
    · simp
  have hitem : ∀ cm ∈ cms, ∃ g : ℝ, (double.rounding ℝ).mul ((double.rounding ℝ).f1Score cm) ((double.rounding ℝ).ofNat (cm 1 0 + cm 1 1)) = .fin g ∧
      double.round g = .fin g ∧ 0 ≤ g ∧ g ≤ ((cm 1 0 + cm 1 1 : ℕ) : ℝ) ∧
      |g - Knn.f1Score cm * ((cm 1 0 + cm 1 1 : ℕ) : ℝ)| ≤ 10 * u * (Knn.f1Score cm * ((cm 1 0 + cm 1 1 : ℕ) : ℝ)) := by
    intro cm hcm
    obtain ⟨z, z1, z2, z3, z4, z5, z6, -⟩ := C287_score cm ((hN cm hcm).trans (by norm_num))
    rw [← hu'] at z5
    rw [z1, eR cm hcm]
    have hmul : (double.rounding ℝ).mul (.fin z) (.fin ((cm 1 0 + cm 1 1 : ℕ) : ℝ)) = double.round (z * ((cm 1 0 + cm 1 1 : ℕ) : ℝ)) := rfl
    rw [hmul]
    have hw0 : (0 : ℝ) ≤ ((cm 1 0 + cm 1 1 : ℕ) : ℝ) := Nat.cast_nonneg _
    have key : ∃ g, double.round (z * ((cm 1 0 + cm 1 1 : ℕ) : ℝ)) = .fin g ∧ double.round g = .fin g ∧
        |g - Knn.f1Score cm * ((cm 1 0 + cm 1 1 : ℕ) : ℝ)| ≤ 10 * u * (Knn.f1Score cm * ((cm 1 0 + cm 1 1 : ℕ) : ℝ)) := by
      rcases f1_size cms hN cm hcm with ⟨h1, h2⟩ | ⟨h1, h2⟩
      · refine ⟨0, ?_, (double.rounding ℝ).zero, ?_⟩
        · rw [z6.2 h2, zero_mul]
          exact (double.rounding ℝ).zero
        · rw [h1]
          simp
      · have hw1 : (1 : ℝ) ≤ ((cm 1 0 + cm 1 1 : ℕ) : ℝ) := by
          have : 1 ≤ cm 1 0 + cm 1 1 := by omega
          exact_mod_cast this
        have hw2 : ((cm 1 0 + cm 1 1 : ℕ) : ℝ) ≤ 16777216 := by exact_mod_cast hw24 cm hcm
        have hfp : 0 < Knn.f1Score (K := ℝ) cm := lt_of_lt_of_le (by norm_num) h1
        have hrel : Rel 8 z (Knn.f1Score cm) := ⟨hfp, z5, by norm_num, by norm_num⟩
        have hf1 := (C47_range (K := ℝ) cm).2
        obtain ⟨g, g1, g2, g3⟩ := (hrel.mul (Rel.exact (lt_of_lt_of_le one_pos hw1)) (by norm_num)).round (by
          have h3 : (1 : ℝ) / 2 ^ 25 * 1 ≤ Knn.f1Score (K := ℝ) cm * ((cm 1 0 + cm 1 1 : ℕ) : ℝ) := mul_le_mul h1 hw1 zero_le_one hfp.le
          refine le_trans ?_ h3
          norm_num) (by
          have h3 : Knn.f1Score (K := ℝ) cm * ((cm 1 0 + cm 1 1 : ℕ) : ℝ) ≤ 1 * 16777216 := mul_le_mul hf1 hw2 hw0 zero_le_one
          refine h3.trans ?_
          norm_num) (by norm_num)
        exact ⟨g, g1, g2, (g3.mono (k' := 10) (by norm_num) (by norm_num)).near⟩
    obtain ⟨g, g1, g2, g3⟩ := key
    refine ⟨g, g1, g2, ?_, ?_, g3⟩
    · have := (double.rounding ℝ).mono 0 _ (mul_nonneg z3 hw0)
      rw [(double.rounding ℝ).zero, show (double.rounding ℝ).rnd (z * ((cm 1 0 + cm 1 1 : ℕ) : ℝ)) = .fin g from g1] at this
      exact this
    · have := (double.rounding ℝ).mono _ _ (mul_le_of_le_one_left hw0 z4)
      rw [show (double.rounding ℝ).rnd (z * ((cm 1 0 + cm 1 1 : ℕ) : ℝ)) = .fin g from g1,
        show (double.rounding ℝ).rnd (((cm 1 0 + cm 1 1 : ℕ) : ℝ)) = _ from eR cm hcm] at this
      exact this
  choose! g g1 g2 g3 g4 g5 using hitem
  have el : (cms.map fun cm => (double.rounding ℝ).mul ((double.rounding ℝ).f1Score cm) ((double.rounding ℝ).ofNat (cm 1 0 + cm 1 1))) =
      cms.map fun cm => .fin (g cm) := List.map_congr_left fun cm h => g1 cm h
  have hs := hsum (cms.map fun cm => .fin (g cm)) (by
    intro a ha
    obtain ⟨cm, hcm, rfl⟩ := List.mem_map.1 ha
    exact g2 cm hcm)
  obtain ⟨q, q1, q2, q3⟩ := quot_unit (b := fun cm : Fin 2 → Fin 2 → ℕ => cm 1 0 + cm 1 1) hs (fun cm h => ⟨g3 cm h, g4 cm h⟩) (Nat.pos_of_ne_zero hz) (hW.trans (by norm_num))
  obtain ⟨r, r1, r2⟩ := quot_error (δ := 10 * u) (v := fun cm => Knn.f1Score (K := ℝ) cm * ((cm 1 0 + cm 1 1 : ℕ) : ℝ)) (fun cm h => g2 cm h) (fun cm h => by
    have hf := C47_range (K := ℝ) cm
    have hw0 : (0 : ℝ) ≤ ((cm 1 0 + cm 1 1 : ℕ) : ℝ) := Nat.cast_nonneg _
    have hw2 : ((cm 1 0 + cm 1 1 : ℕ) : ℝ) ≤ 16777216 := by exact_mod_cast hw24 cm h
    refine ⟨mul_nonneg hf.1 hw0, (mul_le_mul hf.2 hw2 hw0 zero_le_one).trans (by norm_num), ?_⟩
    rcases f1_size cms hN cm h with ⟨h1, -⟩ | ⟨h1, h2⟩
    · left
      rw [h1, zero_mul]
    · right
      have hw1 : (1 : ℝ) ≤ ((cm 1 0 + cm 1 1 : ℕ) : ℝ) := by
        have : 1 ≤ cm 1 0 + cm 1 1 := by omega
        exact_mod_cast this
      have h3 : (1 : ℝ) / 2 ^ 25 * 1 ≤ Knn.f1Score (K := ℝ) cm * ((cm 1 0 + cm 1 1 : ℕ) : ℝ) := mul_le_mul h1 hw1 zero_le_one hf.1
      linarith) (fun cm h => g5 cm h) (by linarith) (by linarith) hl hlen (Nat.pos_of_ne_zero hz) hW hs
  refine ⟨_, q, by unfold Knn.f1Weighted; simp only; rw [if_neg hz], ?_, q2, q3, ?_⟩
  · unfold Rounding.f1Weighted
    simp only
    rw [eRl, hden, if_neg fun e => hz (by exact_mod_cast XR.fin.inj e), el, ← ofNat_exact (hW.trans (by norm_num)), q1]
  · rw [← XR.fin.inj (r1.symm.trans q1)]
    refine r2.trans_eq ?_
    ring

end

/-! ### Instances -/

example := C287_score ![![5, 1], ![2, 3]] (by decide)

example := C287_micro [![![5, 1], ![2, 3]], ![![3, 2], ![1, 5]]] (by decide)

example := C287_macro [![![5, 1], ![2, 3]], ![![3, 2], ![1, 5]]] (fun l => l.foldl (double.rounding ℝ).add (.fin 0)) (fun l hl => sums_foldl _ l hl)
  (by decide) (by decide) (by simp)

example := C287_weighted [![![5, 1], ![2, 3]], ![![3, 2], ![1, 5]]] (fun l => l.foldl (double.rounding ℝ).add (.fin 0)) (fun l hl => sums_foldl _ l hl)
  (by decide) (by decide)

end HubToolbox.Rounding
