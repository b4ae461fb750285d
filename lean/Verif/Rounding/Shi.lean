import Verif.Rounding.ShiModel
import Verif.Rounding.F1Props
import Verif.SNN.SimhubProps
import Mathlib.Analysis.SpecialFunctions.Log.Deriv
import Mathlib.Analysis.Complex.ExponentialBounds

/-!
# Errors of hubness-aware shared neighbours
-/

set_option autoImplicit false

namespace HubToolbox.Rounding

open HubToolbox Ieee

/-- Sums in any order of additions; logarithms of numbers in `[1, 2³⁰]` within two units of rounding. -/
structure ShiLib.Near (L : ShiLib) : Prop where
  sum : ∀ l, (∀ a ∈ l, (double.rounding ℝ).Float a) → (double.rounding ℝ).Sums l (L.sum l)
  log : ∀ x : ℝ, double.round x = .fin x → 1 ≤ x → x ≤ 2 ^ 30 → ∃ y, L.log (.fin x) = .fin y ∧ double.round y = .fin y ∧ |y - Real.log x| ≤ 2 * u * Real.log x

theorem u_le_lit : u ≤ 1 / 1125899906842624 := by
  have := u_le_50
  norm_num at this
  exact this

/-- Perturbation of the argument of a logarithm. -/
theorem log_pert {x X : ℝ} (hX : 0 < X) (h : |x - X| ≤ u * X) : |Real.log x - Real.log X| ≤ 101 / 100 * u := by
  have hu := u_pos
  have h50 := u_le_lit
  have h1 := abs_le.1 h
  have huX : u * X ≤ 1 / 1000 * X := mul_le_mul_of_nonneg_right (by linarith) hX.le
  have hx : 0 < x := by linarith
  rw [← Real.log_div hx.ne' hX.ne', abs_le]
  have hq : 0 < x / X := div_pos hx hX
  have hup := Real.log_le_sub_one_of_pos hq
  have hlo := Real.one_sub_inv_le_log_of_pos hq
  constructor
  · refine le_trans ?_ hlo
    rw [inv_div]
    have : X / x ≤ 1 + 101 / 100 * u := by
      rw [div_le_iff₀ hx]
      have h2 : (1 + 101 / 100 * u) * (X - u * X) ≤ (1 + 101 / 100 * u) * x := mul_le_mul_of_nonneg_left (by linarith) (by linarith)
      have h3 : (1 + 101 / 100 * u) * (X - u * X) = X + u * X * (1 / 100 - 101 / 100 * u) := by ring
      have h4 : 0 ≤ u * X * (1 / 100 - 101 / 100 * u) := mul_nonneg (by positivity) (by linarith)
      linarith
    linarith
  · refine hup.trans ?_
    have : x / X ≤ 1 + u := by
      rw [div_le_iff₀ hX]
      linarith
    linarith

/-- Logarithm of the quotient of two counts. -/
theorem weight_near (L : ShiLib) (hL : L.Near) {m N : ℕ} (hm : m ≤ 2 ^ 25) (hN0 : 0 < N) (hN : N ≤ m) : ∃ g : ℝ, (double.rounding ℝ).shiWeight L m N = .fin g ∧
    double.round g = .fin g ∧ |g - Real.log ((m : ℝ) / N)| ≤ 2 * u * Real.log ((m : ℝ) / N) + 2 * u ∧ 0 ≤ Real.log ((m : ℝ) / N) ∧
    ((Real.log ((m : ℝ) / N) = 0 ∧ g = 0) ∨ (0 < Real.log ((m : ℝ) / N) ∧ 1 / 2 ^ 30 ≤ g)) := by
  have hu := u_pos
  have h50 := u_le_lit
  have hN1 : (1 : ℝ) ≤ N := by exact_mod_cast hN0
  have hm1 : (N : ℝ) ≤ m := by exact_mod_cast hN
  have hm2 : (m : ℝ) ≤ 33554432 := by exact_mod_cast hm
  have hX1 : 1 ≤ (m : ℝ) / N := by rw [le_div_iff₀ (by linarith)]; linarith
  have hX2 : (m : ℝ) / N ≤ 33554432 := by
    rw [div_le_iff₀ (by linarith)]
    nlinarith
  unfold shiWeight
  rw [quot_nat (by omega) (by omega) (by omega)]
  obtain ⟨X, hX⟩ : ∃ X, X = (m : ℝ) / N := ⟨_, rfl⟩
  have hgap : N < m → 1 / 33554432 ≤ Real.log X := by
    intro hlt
    have h1 : (N : ℝ) + 1 ≤ m := by exact_mod_cast hlt
    have h2 := Real.one_sub_inv_le_log_of_pos (show 0 < X by linarith)
    rw [hX, inv_div] at h2
    have h3 : (N : ℝ) / m ≤ 1 - 1 / 33554432 := by
      rw [div_le_iff₀ (by linarith)]
      linarith
    rw [hX]
    linarith
  have hXm : N = m → X = 1 := by
    intro e
    rw [hX, e, div_self]
    linarith
  rw [← hX] at hX1 hX2 ⊢
  have hl0 : 0 ≤ Real.log X := Real.log_nonneg hX1
  obtain ⟨x, x1, x2, x3⟩ := rel_moderate (x := X) (Or.inr (by rw [abs_of_pos (by linarith)]; exact le_trans (by norm_num) hX1))
    (by rw [abs_of_pos (by linarith)]; exact hX2.trans (by norm_num))
  rw [abs_of_pos (show 0 < X by linarith)] at x3
  have hx1 : 1 ≤ x := by
    have := (double.rounding ℝ).mono 1 X hX1
    rw [(double.rounding ℝ).one, show (double.rounding ℝ).rnd X = .fin x from x1] at this
    exact this
  have hx2 : x ≤ 2 ^ 30 := by
    have h1 := (abs_le.1 x3).2
    have h2 : u * X ≤ 1 * X := mul_le_mul_of_nonneg_right (by linarith) (by linarith)
    have : (2 : ℝ) ^ 30 = 1073741824 := by norm_num
    linarith
  obtain ⟨g, g1, g2, g3⟩ := hL.log x x2 hx1 hx2
  have hp := log_pert (by linarith) x3
  have hlx : 0 ≤ Real.log x := Real.log_nonneg hx1
  have hp' := abs_le.1 hp
  have g3' := abs_le.1 g3
  have hul : u * Real.log x ≤ u * (Real.log X + 101 / 100 * u) := mul_le_mul_of_nonneg_left (by linarith) hu.le
  have huu : u * u ≤ 1 / 1000 * u := mul_le_mul_of_nonneg_right (by linarith) hu.le
  rw [x1]
  refine ⟨g, g1, g2, ?_, hl0, ?_⟩
  · rw [abs_le]
    constructor <;> linarith
  · rcases lt_or_eq_of_le hN with h | h
    · right
      have h1 := hgap h
      refine ⟨by linarith, ?_⟩
      have h3 : u * Real.log x ≤ 1 / 8 * Real.log x := mul_le_mul_of_nonneg_right (by linarith) hlx
      have e : (1 : ℝ) / 2 ^ 30 = 1 / 1073741824 := by norm_num
      rw [e]
      linarith
    · left
      have h1 := hXm h
      have h2 : x = 1 := by
        rw [h1] at x1
        exact XR.fin.inj (x1.symm.trans (double.rounding ℝ).one)
      rw [h2, Real.log_one] at g3
      rw [h1, Real.log_one]
      refine ⟨rfl, ?_⟩
      have : |g - 0| ≤ 0 := g3.trans (by simp)
      have := abs_nonpos_iff.1 this
      linarith

/-- The normalising factor. -/
theorem norm_near (L : ShiLib) (hL : L.Near) {n s : ℕ} (hn : n ≤ 2 ^ 25) (h1 : 1 ≤ s) (hs : s < n) : ∃ M : ℝ,
    (double.rounding ℝ).mul ((double.rounding ℝ).rnd ((s : ℤ) : ℝ)) (L.log ((double.rounding ℝ).ofNat n)) = .fin M ∧ Rel 4 M (s * Real.log n) := by
  have hn1 : (2 : ℝ) ≤ n := by
    have : 2 ≤ n := by omega
    exact_mod_cast this
  have hn2 : (n : ℝ) ≤ 33554432 := by exact_mod_cast hn
  have hs1 : (1 : ℝ) ≤ s := by exact_mod_cast h1
  have hs2 : (s : ℝ) ≤ 33554432 := by
    have : s ≤ 2 ^ 25 := by omega
    exact_mod_cast this
  have en := ofNat_exact (a := n) (by omega)
  have es := ofNat_exact (a := s) (by omega)
  have hlog2 := Real.log_two_gt_d9
  have hlog : Real.log 2 ≤ Real.log n := Real.log_le_log (by norm_num) hn1
  have hlogu : Real.log n ≤ 33554432 := (Real.log_le_sub_one_of_pos (by linarith)).trans (by linarith)
  obtain ⟨l, l1, l2, l3⟩ := hL.log n en (by linarith) (hn2.trans (by norm_num))
  have hr : Rel 2 l (Real.log n) := ⟨by linarith, l3, by norm_num, by norm_num⟩
  obtain ⟨M, M1, -, M3⟩ := ((Rel.exact (show (0 : ℝ) < s by linarith)).mul hr (by norm_num)).round (by
      have : (1 : ℝ) * (1 / 2) ≤ s * Real.log n := mul_le_mul hs1 (by linarith) (by norm_num) (by linarith)
      exact le_trans (by norm_num) this) (by
      have : (s : ℝ) * Real.log n ≤ 33554432 * 33554432 := mul_le_mul hs2 hlogu (by linarith) (by norm_num)
      exact this.trans (by norm_num)) (by norm_num)
  refine ⟨M, ?_, M3.mono (by norm_num) (by norm_num)⟩
  rw [en, l1, Int.cast_natCast, show (double.rounding ℝ).rnd (s : ℝ) = .fin (s : ℝ) from es]
  exact M1

/-- The sum of the weights of common neighbours. -/
theorem shi_sum {n s : ℕ} (hn : n ≤ 2 ^ 25) (hn0 : 0 < n) (A : Finset (Fin n)) (hA : A.card ≤ s) (g G : Fin n → ℝ) (hf : ∀ c ∈ A, double.round (g c) = .fin (g c))
    (hG0 : ∀ c ∈ A, 0 ≤ G c) (hGb : ∀ c ∈ A, G c ≤ 1000) (hg : ∀ c ∈ A, |g c - G c| ≤ 2 * u * G c + 2 * u)
    (hz : ∀ c ∈ A, (G c = 0 ∧ g c = 0) ∨ (0 < G c ∧ 1 / 2 ^ 30 ≤ g c)) {S : XR ℝ}
    (hS : (double.rounding ℝ).Sums (List.ofFn fun c => .fin (if c ∈ A then g c else 0)) S) : ∃ σ : ℝ, S = .fin σ ∧ double.round σ = .fin σ ∧
      |σ - ∑ c ∈ A, G c| ≤ (n + 3) * u * (∑ c ∈ A, G c) + 3 * u * s ∧ ((∑ c ∈ A, G c = 0 ∧ σ = 0) ∨ (0 < ∑ c ∈ A, G c ∧ 1 / 2 ^ 31 ≤ σ)) := by
  have hu := u_pos
  have h50 := u_le_lit
  have hn1 : (1 : ℝ) ≤ n := by exact_mod_cast hn0
  have hn2 : (n : ℝ) ≤ 33554432 := by exact_mod_cast hn
  have hnu : (n : ℝ) * u ≤ 1 / 1000 := by
    have := mul_le_mul hn2 h50 hu.le (by norm_num)
    refine this.trans ?_
    norm_num
  have g0 : ∀ c ∈ A, 0 ≤ g c := by
    intro c hc
    rcases hz c hc with h | h
    · exact h.2.ge
    · exact le_trans (by norm_num) h.2
  have em : (List.ofFn fun c => (.fin (if c ∈ A then g c else 0) : XR ℝ)) = (List.ofFn fun c => if c ∈ A then g c else 0).map .fin := by
    rw [List.map_ofFn]
    rfl
  have e1 : (List.ofFn fun c => if c ∈ A then g c else 0).sum = ∑ c ∈ A, g c := by
    rw [List.sum_ofFn, Finset.sum_ite_mem, Finset.univ_inter]
  have e2 : ((List.ofFn fun c => if c ∈ A then g c else 0).map (|·|)).sum = ∑ c ∈ A, g c := by
    rw [← e1]
    congr 1
    rw [List.map_ofFn]
    congr 1
    funext c
    simp only [Function.comp]
    split_ifs with h
    · exact abs_of_nonneg (g0 c h)
    · exact abs_zero
  rw [em] at hS
  have hA' : (A.card : ℝ) ≤ s := by exact_mod_cast hA
  have hcn : (A.card : ℝ) ≤ n := by
    have := Finset.card_le_univ A
    rw [Fintype.card_fin] at this
    exact_mod_cast this
  obtain ⟨T, hT⟩ : ∃ T, T = ∑ c ∈ A, G c := ⟨_, rfl⟩
  obtain ⟨t, ht⟩ : ∃ t, t = ∑ c ∈ A, g c := ⟨_, rfl⟩
  have hT0 : 0 ≤ T := hT ▸ Finset.sum_nonneg hG0
  have ht0 : 0 ≤ t := ht ▸ Finset.sum_nonneg g0
  have hTb : T ≤ 1000 * 33554432 := by
    rw [hT]
    refine (Finset.sum_le_card_nsmul A _ 1000 hGb).trans ?_
    rw [nsmul_eq_mul]
    linarith
  have htT : |t - T| ≤ 2 * u * T + 2 * u * s := by
    rw [ht, hT, ← Finset.sum_sub_distrib]
    refine (Finset.abs_sum_le_sum_abs _ _).trans ?_
    refine (Finset.sum_le_sum hg).trans ?_
    rw [Finset.sum_add_distrib, ← Finset.mul_sum, Finset.sum_const, nsmul_eq_mul]
    have := mul_le_mul_of_nonneg_left hA' hu.le
    linarith
  have htT' := abs_le.1 htT
  have hcase : (T = 0 ∧ t = 0) ∨ (0 < T ∧ 1 / 2 ^ 30 ≤ t) := by
    by_cases h : ∀ c ∈ A, G c = 0 ∧ g c = 0
    · left
      rw [hT, ht]
      exact ⟨Finset.sum_eq_zero fun c hc => (h c hc).1, Finset.sum_eq_zero fun c hc => (h c hc).2⟩
    · right
      push Not at h
      obtain ⟨c, hc, h⟩ := h
      rcases hz c hc with h' | h'
      · exact absurd h'.2 (h h'.1)
      · rw [hT, ht]
        exact ⟨h'.1.trans_le (Finset.single_le_sum hG0 hc), h'.2.trans (Finset.single_le_sum g0 hc)⟩
  have hg' := hood_gamma hn0 hn
  have hs0 : (0 : ℝ) ≤ s := Nat.cast_nonneg _
  have hub : t ≤ 1000000000000 := by
    have hg1 : ∀ c ∈ A, g c ≤ 2000 := by
      intro c hc
      have h1 := (abs_le.1 (hg c hc)).2
      have h2 : u * G c ≤ 1 / 8 * G c := mul_le_mul_of_nonneg_right (by linarith) (hG0 c hc)
      have := hGb c hc
      linarith
    rw [ht]
    refine (Finset.sum_le_card_nsmul A _ 2000 hg1).trans ?_
    rw [nsmul_eq_mul]
    linarith
  obtain ⟨σ, rfl, s2, s3⟩ := Ieee.sum_error (K := ℝ) double hS (by
      intro x hx
      obtain ⟨c, rfl⟩ := (List.mem_ofFn' _ _).1 hx
      beta_reduce
      split_ifs with h
      · exact hf c h
      · exact (double.rounding ℝ).zero) (by
      rw [e2, List.length_ofFn, ← ht]
      have h1 : (1 + u) ^ (n - 1) ≤ 2 := by linarith
      have h2 : (1 + u) ^ (n - 1) * t ≤ 2 * 1000000000000 := mul_le_mul h1 hub ht0 (by norm_num)
      refine h2.trans ((show (2 : ℝ) * 1000000000000 ≤ 2 ^ 60 by norm_num).trans ?_)
      exact small_emax le_rfl)
  rw [e1, e2, List.length_ofFn, ← ht] at s3
  have s4 : |σ - t| ≤ n * u * t := s3.trans (mul_le_mul_of_nonneg_right hg' ht0)
  have s5 := abs_le.1 s4
  have s6 : n * u * t ≤ 1 / 1000 * t := mul_le_mul_of_nonneg_right hnu ht0
  rw [← hT]
  refine ⟨σ, rfl, s2, ?_, ?_⟩
  · have h1 : (n * u) * t ≤ (n * u) * (T + (2 * u * T + 2 * u * s)) := mul_le_mul_of_nonneg_left (by linarith) (by positivity)
    have h2 : (n * u) * (2 * u * T + 2 * u * s) ≤ 1 / 1000 * (2 * u * T + 2 * u * s) := mul_le_mul_of_nonneg_right hnu (by positivity)
    have h3 : 0 ≤ u * T := by positivity
    have h4 : 0 ≤ u * s := by positivity
    rw [abs_le]
    constructor <;> linarith
  · rcases hcase with ⟨h1, h2⟩ | ⟨h1, h2⟩
    · left
      refine ⟨h1, ?_⟩
      rw [h2] at s4
      have : |σ - 0| ≤ 0 := s4.trans (by simp)
      have := abs_nonpos_iff.1 this
      linarith
    · right
      refine ⟨h1, ?_⟩
      have e : (1 : ℝ) / 2 ^ 31 = 1 / 2 ^ 30 / 2 := by norm_num
      rw [e]
      linarith

/-- The similarity of one pair. -/
theorem shi_quot (L : ShiLib) (hL : L.Near) {n s : ℕ} (hn : n ≤ 2 ^ 25) (h1 : 1 ≤ s) (hs : s < n) {σ T : ℝ} (hσ : |σ - T| ≤ (n + 3) * u * T + 3 * u * s) (hT0 : 0 ≤ T)
    (hT : T ≤ s * (Real.log n - Real.log 2)) (hz : (T = 0 ∧ σ = 0) ∨ (0 < T ∧ 1 / 2 ^ 31 ≤ σ)) : ∃ q : ℝ,
      (double.rounding ℝ).div (.fin σ) ((double.rounding ℝ).mul ((double.rounding ℝ).rnd ((s : ℤ) : ℝ)) (L.log ((double.rounding ℝ).ofNat n))) = .fin q ∧
      double.round q = .fin q ∧ 0 ≤ q ∧ q ≤ 99 / 100 ∧ (q = 0 ↔ T / (s * Real.log n) = 0) ∧ |q - T / (s * Real.log n)| ≤ (2 * n + 15) * u := by
  have hu := u_pos
  have h50 := u_le_lit
  have hn1 : (2 : ℝ) ≤ n := by
    have : 2 ≤ n := by omega
    exact_mod_cast this
  have hn2 : (n : ℝ) ≤ 33554432 := by exact_mod_cast hn
  have hs1 : (1 : ℝ) ≤ s := by exact_mod_cast h1
  have hs2 : (s : ℝ) ≤ 33554432 := by
    have : s ≤ 2 ^ 25 := by omega
    exact_mod_cast this
  have hlog2 := Real.log_two_gt_d9
  have hlog : Real.log 2 ≤ Real.log n := Real.log_le_log (by norm_num) hn1
  have hlogu : Real.log n ≤ 25 * Real.log 2 := by
    have := Real.log_le_log (by linarith) hn2
    rw [show (33554432 : ℝ) = 2 ^ 25 by norm_num, Real.log_pow] at this
    exact_mod_cast this
  obtain ⟨M, M1, M2⟩ := norm_near L hL hn h1 hs
  obtain ⟨m, hm⟩ : ∃ m, m = (s : ℝ) * Real.log n := ⟨_, rfl⟩
  rw [M1]
  rw [← hm] at M2 ⊢
  have hm0 := M2.pos
  have hsm : (s : ℝ) ≤ 2 * m := by
    have : (s : ℝ) * (1 / 2) ≤ s * Real.log n := mul_le_mul_of_nonneg_left (by linarith) (by linarith)
    linarith
  have hmb : m ≤ 33554432 * 25 := by
    rw [hm]
    have := Real.log_two_lt_d9
    exact mul_le_mul hs2 (by linarith) (by linarith) (by norm_num)
  have hTm : T ≤ 24 / 25 * m := by
    refine hT.trans ?_
    rw [hm]
    have := mul_le_mul_of_nonneg_left (show Real.log n - Real.log 2 ≤ 24 / 25 * Real.log n by linarith) (show (0 : ℝ) ≤ s by linarith)
    linarith
  have hMn := abs_le.1 M2.near
  have hM4 : 4 * u * m ≤ 1 / 1000 * m := mul_le_mul_of_nonneg_right (by linarith) hm0.le
  have hM0 : 0 < M := by linarith
  have hinv := M2.inv (by norm_num)
  have hnu : (n : ℝ) * u ≤ 1 / 10000 := by
    have := mul_le_mul hn2 h50 hu.le (by norm_num)
    refine this.trans ?_
    norm_num
  -- errors before the last rounding
  have herr : |σ / M - T / m| ≤ (101 / 100 * n + 14) * u := by
    have e : σ / M - T / m = (σ - T) * (1 / M) + T * (1 / M - 1 / m) := by field_simp; ring
    rw [e]
    refine (abs_add_le _ _).trans ?_
    rw [abs_mul, abs_mul, abs_of_pos (show 0 < 1 / M by positivity), abs_of_nonneg hT0]
    have a1 : |σ - T| ≤ (n + 9) * u * m := by
      refine hσ.trans ?_
      have b1 : (n + 3) * u * T ≤ (n + 3) * u * m := mul_le_mul_of_nonneg_left (by linarith) (by positivity)
      have b2 : 3 * u * s ≤ 3 * u * (2 * m) := mul_le_mul_of_nonneg_left hsm (by positivity)
      linarith
    have a2 : 1 / M ≤ 1001 / 1000 * (1 / m) * (1001 / 1000) := by
      rw [div_le_iff₀ hM0]
      have : 1001 / 1000 * (1 / m) * (1001 / 1000) * (999 / 1000 * m) ≤ 1001 / 1000 * (1 / m) * (1001 / 1000) * M := mul_le_mul_of_nonneg_left (by linarith) (by positivity)
      have e : 1001 / 1000 * (1 / m) * (1001 / 1000) * (999 / 1000 * m) = 1001 / 1000 * (1001 / 1000) * (999 / 1000) := by field_simp
      rw [e] at this
      linarith
    have a3 : |σ - T| * (1 / M) ≤ (n + 9) * u * m * (1001 / 1000 * (1 / m) * (1001 / 1000)) := mul_le_mul a1 a2 (by positivity) (by positivity)
    have e3 : (n + 9) * u * m * (1001 / 1000 * (1 / m) * (1001 / 1000)) = (n + 9) * u * (1001 / 1000 * (1001 / 1000)) := by field_simp
    have a4 : T * |1 / M - 1 / m| ≤ m * ((4 + 1 / 1000) * u * (1 / m)) := mul_le_mul (by linarith) hinv.near (abs_nonneg _) hm0.le
    have e4 : m * ((4 + 1 / 1000) * u * (1 / m)) = (4 + 1 / 1000) * u := by field_simp
    have a5 : 0 ≤ n * u := by positivity
    rw [e3] at a3
    rw [e4] at a4
    linarith
  have hTm' : T / m ≤ 24 / 25 := by
    rw [div_le_iff₀ hm0]
    exact hTm
  have hTm0 : 0 ≤ T / m := div_nonneg hT0 hm0.le
  have herr' := abs_le.1 herr
  have hsmall : (101 / 100 * n + 14) * u ≤ 1 / 1000 := by linarith
  have hσ0 : 0 ≤ σ := by
    rcases hz with h | h
    · exact h.2.ge
    · exact le_trans (by norm_num) h.2
  have hqp : 0 ≤ σ / M := div_nonneg hσ0 hM0.le
  obtain ⟨q, q1, q2, q3⟩ := rel_moderate (x := σ / M) (by
      rcases hz with h | h
      · left
        rw [h.2, zero_div]
      · right
        rw [abs_of_nonneg hqp, le_div_iff₀ hM0]
        refine le_trans ?_ h.2
        have : (1 : ℝ) / 2 ^ 100 * M ≤ 1 / 2 ^ 100 * (2 * (33554432 * 25)) := mul_le_mul_of_nonneg_left (by linarith) (by positivity)
        refine this.trans ?_
        norm_num) (by
      rw [abs_of_nonneg hqp]
      have : (1 : ℝ) ≤ 2 ^ 60 := by norm_num
      linarith)
  rw [abs_of_nonneg hqp] at q3
  have q3' := abs_le.1 q3
  have huq : u * (σ / M) ≤ u * 1 := mul_le_mul_of_nonneg_left (by linarith) hu.le
  have huq' : u * (σ / M) ≤ 1 / 2 * (σ / M) := mul_le_mul_of_nonneg_right (by linarith) hqp
  refine ⟨q, ?_, q2, by linarith, by linarith, ?_, ?_⟩
  · exact (congrArg (double.rounding ℝ).up (div_fin σ hM0.ne')).trans q1
  · rcases hz with h | h
    · have : σ / M = 0 := by rw [h.2, zero_div]
      rw [h.1, zero_div]
      rw [this] at q3'
      refine ⟨fun _ => rfl, fun _ => ?_⟩
      linarith
    · have h2 : 0 < σ := lt_of_lt_of_le (by norm_num) h.2
      have h3 : 0 < σ / M := div_pos h2 hM0
      exact ⟨fun e => absurd e (by linarith), fun e => absurd e (div_pos h.1 hm0).ne'⟩
  · have a5 : 0 ≤ n * u := by positivity
    rw [abs_le]
    constructor <;> linarith

end HubToolbox.Rounding
