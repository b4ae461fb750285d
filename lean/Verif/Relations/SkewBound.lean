import Verif.Hubness.Props
import Mathlib.Algebra.Order.Chebyshev
import Mathlib.Algebra.BigOperators.Field
import Mathlib.Tactic.Positivity

/-!
# Range of the hubness value

C203: the hubness `S_k` of a matrix with `m` columns lies between `-(m-2)/√(m-1)` and `(m-2)/√(m-1)`; the bounds depend on
the number of objects, so values of data sets of different size are not on one scale. The upper bound is attained.
-/

set_option autoImplicit false

namespace HubToolbox.Hubness

open HubToolbox Spec

section
variable {m : ℕ}

/-- A value among `m` values with mean 0 and mean square 1 is at most `√(m-1)`. -/
theorem sq_le_of_normed (z : Fin m → ℝ) (h1 : ∑ j, z j = 0) (h2 : ∑ j, z j ^ 2 = m) (a : Fin m) :
    z a ^ 2 ≤ (m : ℝ) - 1 := by
  have hm : 0 < m := a.pos
  have e1 : ∑ j ∈ Finset.univ.erase a, z j = - z a := by
    have := Finset.add_sum_erase Finset.univ z (Finset.mem_univ a)
    linarith
  have e2 : ∑ j ∈ Finset.univ.erase a, z j ^ 2 = m - z a ^ 2 := by
    have := Finset.add_sum_erase Finset.univ (fun j => z j ^ 2) (Finset.mem_univ a)
    linarith
  have hc := sq_sum_le_card_mul_sum_sq (s := Finset.univ.erase a) (f := z)
  rw [e1, e2, Finset.card_erase_of_mem (Finset.mem_univ a), Finset.card_univ, Fintype.card_fin,
    Nat.cast_sub (Nat.one_le_iff_ne_zero.2 hm.ne')] at hc
  push_cast at hc
  have hmR : (0 : ℝ) < m := by exact_mod_cast hm
  nlinarith [hc, hmR]

theorem cube_sum_le (hm : 2 ≤ m) (z : Fin m → ℝ) (h1 : ∑ j, z j = 0) (h2 : ∑ j, z j ^ 2 = m) :
    (∑ j, z j ^ 3) / m ≤ ((m : ℝ) - 2) / √((m : ℝ) - 1) := by
  have hmR : (2 : ℝ) ≤ m := by exact_mod_cast hm
  set M := √((m : ℝ) - 1) with hM
  have hMpos : 0 < M := Real.sqrt_pos.2 (by linarith)
  have hMsq : M ^ 2 = (m : ℝ) - 1 := Real.sq_sqrt (by linarith)
  have hle : ∀ j, z j ≤ M := fun j => Real.le_sqrt_of_sq_le (sq_le_of_normed z h1 h2 j)
  have hterm : ∀ j, M ^ 2 * z j ^ 3 ≤ (M ^ 3 - 2 * M) * z j ^ 2 + (2 * M ^ 2 - 1) * z j + M := by
    intro j
    have : (z j - M) * (M * z j + 1) ^ 2 ≤ 0 :=
      mul_nonpos_of_nonpos_of_nonneg (by linarith [hle j]) (sq_nonneg _)
    nlinarith [this]
  have hsum := Finset.sum_le_sum (fun j (_ : j ∈ (Finset.univ : Finset (Fin m))) => hterm j)
  rw [← Finset.mul_sum, Finset.sum_add_distrib, Finset.sum_add_distrib, ← Finset.mul_sum, ← Finset.mul_sum, h1, h2,
    Finset.sum_const, Finset.card_univ, Fintype.card_fin, nsmul_eq_mul] at hsum
  rw [div_le_div_iff₀ (by linarith) hMpos]
  have : M ^ 2 * ((∑ j, z j ^ 3) * M) ≤ M ^ 2 * (((m : ℝ) - 2) * m) := by
    have h3 : M ^ 2 * (∑ j, z j ^ 3) * M ≤ ((M ^ 3 - 2 * M) * m + (2 * M ^ 2 - 1) * 0 + m * M) * M :=
      mul_le_mul_of_nonneg_right hsum hMpos.le
    have h4 : ((M ^ 3 - 2 * M) * m + (2 * M ^ 2 - 1) * 0 + m * M) * M = M ^ 2 * (((m : ℝ) - 2) * m) := by
      have : ((M ^ 3 - 2 * M) * m + (2 * M ^ 2 - 1) * 0 + m * M) * M = M ^ 2 * ((M ^ 2 - 1) * m) := by ring
      rw [this, hMsq]; ring
    linarith
  exact le_of_mul_le_mul_left this (by positivity)

/-- The skewness of `m` values is at most `(m-2)/√(m-1)` in absolute value. -/
theorem skewness_bound (hm : 2 ≤ m) (x : Fin m → ℝ) (μ : ℝ) (hμ : ∑ j, (x j - μ) = 0) :
    |skewness x μ| ≤ ((m : ℝ) - 2) / √((m : ℝ) - 1) := by
  have hmR : (2 : ℝ) ≤ m := by exact_mod_cast hm
  unfold skewness
  set V := (∑ j, (x j - μ) ^ 2) / m with hV
  have hV0 : 0 ≤ V := div_nonneg (Finset.sum_nonneg (fun _ _ => sq_nonneg _)) (by linarith)
  by_cases h0 : √V = 0
  · rw [if_pos h0, abs_zero]
    exact div_nonneg (by linarith) (Real.sqrt_nonneg _)
  rw [if_neg h0]
  have hs : 0 < √V := lt_of_le_of_ne (Real.sqrt_nonneg _) (Ne.symm h0)
  have hsq : √V ^ 2 = V := Real.sq_sqrt hV0
  have hz : ∀ c : ℝ, c ^ 2 = 1 → c * ((∑ j, (x j - μ) ^ 3) / m / √V ^ 3) ≤ ((m : ℝ) - 2) / √((m : ℝ) - 1) := by
    intro c hc
    have hc3 : c ^ 3 = c := by rw [pow_succ, hc, one_mul]
    have key := cube_sum_le hm (fun j => c * ((x j - μ) / √V)) ?_ ?_
    · refine le_trans (le_of_eq ?_) key
      have : ∑ j, (c * ((x j - μ) / √V)) ^ 3 = c * ((∑ j, (x j - μ) ^ 3) / √V ^ 3) := by
        rw [Finset.sum_div, Finset.mul_sum]
        refine Finset.sum_congr rfl (fun j _ => ?_)
        rw [mul_pow, hc3, div_pow]
      rw [this]
      ring
    · rw [← Finset.mul_sum, ← Finset.sum_div, hμ, zero_div, mul_zero]
    · have : ∑ j, (c * ((x j - μ) / √V)) ^ 2 = (∑ j, (x j - μ) ^ 2) / √V ^ 2 := by
        rw [Finset.sum_div]
        refine Finset.sum_congr rfl (fun j _ => ?_)
        rw [mul_pow, hc, one_mul, div_pow]
      rw [this, hsq]
      have hVne : V ≠ 0 := by intro h; rw [h, Real.sqrt_zero] at h0; exact h0 rfl
      rw [div_eq_iff hVne, hV]
      field_simp
  rw [abs_le]
  have hp := hz 1 (by norm_num)
  have hn := hz (-1) (by norm_num)
  constructor <;> linarith

end

variable {K : Type} [LinearOrder K] [Zero K]

/-- C203: range of the hubness of a matrix with `m ≥ 2` columns. -/
theorem C203_skewness_range (o : ArgPart (XR K)) (rnd : Rnd) (sched : Schedule) {n m : ℕ} (sparse : Bool)
    (D : Fin n → Fin m → XR K) (k : ℤ) (metric : String) (nJobs : ℤ) (seed shuffle : Bool)
    (hc : Covered nJobs metric n m) (r : Res n)
    (h : hubnessMat o rnd sched sparse D k metric nJobs seed shuffle = .ok r) (hm : 2 ≤ m) :
    |r.Sk| ≤ ((m : ℝ) - 2) / √((m : ℝ) - 1) := by
  rw [C53_skewness o rnd sched sparse D k metric nJobs seed shuffle hc r h]
  apply skewness_bound hm
  have C3 := C03_k_occurrence o rnd sched sparse D k metric nJobs seed shuffle hc r h
  have hN : r.Nk = List.ofFn (fun j : Fin m => occurrences r.Dk j.val) := by
    apply List.ext_getElem
    · simp [C3.1]
    · intro j h1 h2
      rw [(C3.2.1 j h1).1]
      simp
  have hsum : ∑ j : Fin m, (occurrences r.Dk j.val : ℝ) = ((n * (min k ((m : ℤ) - 1)).toNat : ℕ) : ℝ) := by
    rw [← C3.2.2, hN, List.sum_ofFn]
    push_cast
    rfl
  rw [Finset.sum_sub_distrib, hsum, Finset.sum_const, Finset.card_univ, Fintype.card_fin, nsmul_eq_mul]
  have hm0 : (m : ℝ) ≠ 0 := by have : (2 : ℝ) ≤ m := by exact_mod_cast hm
                               linarith
  rw [mul_div_cancel₀ _ hm0, sub_self]

/-- One object which is the only neighbour of all `n` others: the skewness is `(m-2)/√(m-1)`. -/
theorem skewness_single {m : ℕ} (hm : 2 ≤ m) (n : ℕ) (hn : 0 < n) (a : Fin m) (x : Fin m → ℝ)
    (hx : ∀ j, x j = if j = a then (n : ℝ) else 0) :
    skewness x ((n : ℝ) / m) = ((m : ℝ) - 2) / √((m : ℝ) - 1) := by
  have hmR : (2 : ℝ) ≤ m := by exact_mod_cast hm
  have hnR : (0 : ℝ) < n := by exact_mod_cast hn
  have hsum : ∀ p : ℕ, ∑ j, (x j - (n : ℝ) / m) ^ p =
      ((n : ℝ) - n / m) ^ p + ((m : ℝ) - 1) * (-((n : ℝ) / m)) ^ p := by
    intro p
    rw [← Finset.add_sum_erase Finset.univ _ (Finset.mem_univ a), hx a, if_pos rfl]
    congr 1
    have : ∀ j ∈ Finset.univ.erase a, (x j - (n : ℝ) / m) ^ p = (-((n : ℝ) / m)) ^ p := by
      intro j hj
      rw [hx j, if_neg (Finset.ne_of_mem_erase hj), zero_sub]
    rw [Finset.sum_congr rfl this, Finset.sum_const, Finset.card_erase_of_mem (Finset.mem_univ a), Finset.card_univ,
      Fintype.card_fin, nsmul_eq_mul, Nat.cast_sub (by omega)]
    push_cast
    rfl
  set s := √((m : ℝ) - 1) with hs
  have hspos : 0 < s := Real.sqrt_pos.2 (by linarith)
  have hssq : s ^ 2 = (m : ℝ) - 1 := Real.sq_sqrt (by linarith)
  have hm' : (m : ℝ) = s ^ 2 + 1 := by linarith
  have hV : √((∑ j, (x j - (n : ℝ) / m) ^ 2) / m) = n * s / m := by
    rw [hsum 2]
    have : (((n : ℝ) - n / m) ^ 2 + ((m : ℝ) - 1) * (-((n : ℝ) / m)) ^ 2) / m = (n * s / m) ^ 2 := by
      rw [hm']
      have : s ^ 2 + 1 ≠ 0 := by positivity
      field_simp
      ring
    rw [this, Real.sqrt_sq (by positivity)]
  unfold skewness
  rw [hV, hsum 3, if_neg (by positivity)]
  rw [hm']
  have : s ^ 2 + 1 ≠ 0 := by positivity
  field_simp
  ring

/-- C203: the bound is attained for every number of columns, by queries which all have the same nearest object. -/
theorem C203_attained (o : ArgPart (XR ℚ)) (rnd : Rnd) (sched : Schedule) {n m : ℕ} (hm : 2 ≤ m) (hn : 0 < n)
    (hnm : n ≠ m) (shuffle : Bool) :
    ∃ r, hubnessMat o rnd sched false (fun (_ : Fin n) (j : Fin m) => if j.val = 0 then .fin (1 : ℚ) else .fin 2) 1
        "distance" 1 false shuffle = .ok r ∧ r.Sk = ((m : ℝ) - 2) / √((m : ℝ) - 1) := by
  have hc : Covered 1 "distance" n m := by unfold Covered; simp
  obtain ⟨r, hr⟩ := (C01_hubness_succeeds_iff o rnd sched false
    (fun (_ : Fin n) (j : Fin m) => if j.val = 0 then .fin (1 : ℚ) else .fin 2) 1 "distance" 1 false shuffle hc).2
    ⟨Or.inl rfl, by norm_num, by omega, Or.inl rfl⟩
  refine ⟨r, hr, ?_⟩
  have hk : (min 1 ((m : ℤ) - 1)).toNat = 1 := by
    rw [min_eq_left (by omega)]; rfl
  have hD : ∀ i, r.Dk i = [0] := by
    intro i
    obtain ⟨L, hL, hknn⟩ := C01_hubness_knn o rnd sched false _ 1 "distance" 1 false shuffle hc r hr i
    rw [hk] at hknn
    obtain ⟨c, rfl⟩ := List.length_eq_one_iff.1 hknn.length
    rw [hL]
    suffices c.val = 0 by simp [this]
    by_contra hne
    have hb := hknn.best c (by simp) ⟨0, by omega⟩ (by
      rw [List.mem_singleton]; intro e; exact hne (by rw [← e]))
    simp [closer, effective, hnm, hne] at hb
  rw [C53_skewness o rnd sched false _ 1 "distance" 1 false shuffle hc r hr, hk]
  have hocc : ∀ j : Fin m, (occurrences r.Dk j.val : ℝ) = if j = ⟨0, by omega⟩ then (n : ℝ) else 0 := by
    intro j
    unfold occurrences
    simp only [hD]
    by_cases hj : j = ⟨0, by omega⟩
    · subst hj; simp
    · have : j.val ≠ 0 := fun e => hj (Fin.ext e)
      simp [hj, this]
  have := skewness_single hm n hn ⟨0, by omega⟩ _ hocc
  rw [← this]
  congr 2
  push_cast
  ring

example : ∃ r, hubnessMat (ArgPart.ofSort (XR ℚ)) (fun _ _ => 1) ⟨fun n k => List.finRange n ×ˢ List.finRange k,
    fun _ _ => List.Perm.refl _⟩ false (fun (_ : Fin 7) (j : Fin 5) => if j.val = 0 then .fin (1 : ℚ) else .fin 2) 1
    "distance" 1 false true = .ok r ∧ r.Sk = ((5 : ℕ) - 2 : ℝ) / √((5 : ℕ) - 1) :=
  C203_attained _ _ _ (by norm_num) (by norm_num) (by norm_num) true

end HubToolbox.Hubness
