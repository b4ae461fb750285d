import Verif.InOut.Random
import Verif.Rounding.CosineError

/-!
# Random sparse similarity matrices in floating-point arithmetic

`random_sparse_matrix` as in `Verif/InOut/Model.lean`, with all results of arithmetic operations rounded.
-/

set_option autoImplicit false

namespace HubToolbox

namespace Rounding

/-- `random_sparse_matrix` (`/repo/hub_toolbox/io.py` lines 167-191) for the values drawn. `S /= x` multiplies the stored entries by
`1.0 / x`; `S.max()` of an empty matrix raises `ValueError`. -/
def randomSparse {K : Type} [Field K] [LinearOrder K] (R : Rounding K) {n : ℕ} (d : InOut.Draw K n) : Py (Fin n → Fin n → XR K) :=
  if h : 0 < n then
    let S : Fin n → Fin n → XR K := fun i j => R.add (.fin (d.at i j)) (.fin (d.at j i))
    let mx : XR K := (Finset.univ : Finset (Fin n × Fin n)).sup' ⟨(⟨0, h⟩, ⟨0, h⟩), Finset.mem_univ _⟩ (fun p => S p.1 p.2)
    let recip : XR K := R.div (.fin 1) mx
    let S1 : Fin n → Fin n → XR K := fun i j =>
      if (i, j) ∈ d.cells ∨ (j, i) ∈ d.cells then R.mul (S i j) recip else .fin 0
    let S2 : Fin n → Fin n → XR K := fun i j => if i = j then R.sub (S1 i j) (S1 i i) else S1 i j
    .ok fun i j => if i = j then R.add (S2 i j) (.fin 1) else S2 i j
  else .error .valueError

/-- Without rounding this is the function of `Verif/InOut/Model.lean`. -/
theorem randomSparse_exact {K : Type} [Field K] [LinearOrder K] {n : ℕ} (d : InOut.Draw K n) :
    randomSparse (exact K) d = InOut.randomSparse d := by
  unfold randomSparse InOut.randomSparse InOut.maxEntry
  split_ifs with h
  · simp only [exact_add, exact_div, exact_mul, exact_sub, XR.add]
    have hmx : (Finset.univ : Finset (Fin n × Fin n)).sup' ⟨(⟨0, h⟩, ⟨0, h⟩), Finset.mem_univ _⟩
        (fun p => (XR.fin (d.at p.1 p.2 + d.at p.2 p.1) : XR K)) =
        .fin ((Finset.univ : Finset (Fin n × Fin n)).sup' ⟨(⟨0, h⟩, ⟨0, h⟩), Finset.mem_univ _⟩
        (fun p => d.at p.1 p.2 + d.at p.2 p.1)) := by
      refine (Finset.comp_sup'_eq_sup'_comp (γ := XR K) _ XR.fin ?_).symm
      intro x y
      rcases le_total x y with hxy | hxy
      · rw [sup_eq_right.2 hxy, sup_eq_right.2 (show (XR.fin x : XR K) ≤ .fin y from XR.fin_le_fin.2 hxy)]
      · rw [sup_eq_left.2 hxy, sup_eq_left.2 (show (XR.fin y : XR K) ≤ .fin x from XR.fin_le_fin.2 hxy)]
    rw [hmx]
  · rfl

open Ieee (double)

theorem double_ulp : double.ulp ℚ = 1 / 2 ^ 53 := by
  unfold Ieee.ulp
  norm_num [double]

/-- The values of numpy's generator: multiples of `2⁻⁵³` below 1. -/
def Grid {n : ℕ} (d : InOut.Draw ℚ n) : Prop := ∀ i j, ∃ z : ℕ, d.val i j = z / 2 ^ 53

/-- Results between a tiny number and 2 are rounded with a small relative error. -/
theorem round_mid {x : ℚ} (h0 : 1 / 2 ^ 60 ≤ x) (h1 : x ≤ 2 ^ 60) :
    ∃ y, double.round x = .fin y ∧ double.round y = .fin y ∧ |y - x| ≤ 1 / 2 ^ 53 * x := by
  have hx : 0 < x := lt_of_lt_of_le (by norm_num) h0
  obtain ⟨y, hy, hf, he⟩ := Ieee.round_rel double (x := x) (.inr (by
      rw [abs_of_pos hx]
      refine le_trans ?_ h0
      have : (2 : ℚ) ^ (-1022 : ℤ) ≤ 2 ^ (-60 : ℤ) := zpow_le_zpow_right₀ one_le_two (by norm_num)
      exact this.trans_eq (by norm_num))) (by
      rw [abs_of_pos hx]
      refine h1.trans ?_
      have : (2 : ℚ) ^ (60 : ℤ) ≤ 2 ^ (1023 : ℤ) := zpow_le_zpow_right₀ one_le_two (by norm_num)
      exact le_trans (by norm_num) this)
  rw [double_ulp, abs_of_pos hx] at he
  exact ⟨y, hy, hf, he⟩

/-- A float times the rounded inverse of a larger one is at most 1. -/
theorem mul_recip_le_one {s mx : ℚ} (hs : 0 ≤ s) (hsm : s ≤ mx) (hm0 : 1 / 2 ^ 54 ≤ mx) (hm1 : mx ≤ 2)
    (hs' : s = 0 ∨ 1 / 2 ^ 54 ≤ s) :
    ∃ y, (double.rounding ℚ).mul (.fin s) ((double.rounding ℚ).div (.fin 1) (.fin mx)) = .fin y ∧ 0 ≤ y ∧ y ≤ 1 ∧
      (y = 0 ↔ s = 0) := by
  have hmp : 0 < mx := lt_of_lt_of_le (by norm_num) hm0
  obtain ⟨r, hr, -, he⟩ := round_mid (x := 1 / mx) (by
    rw [le_div_iff₀ hmp]; linarith) (by
    rw [div_le_iff₀ hmp]; linarith)
  have hdiv : (double.rounding ℚ).div (.fin 1) (.fin mx) = .fin r := by
    simp only [div, XR.div, if_neg hmp.ne']
    exact hr
  rw [hdiv]
  have hinv : 0 < 1 / mx := by positivity
  have he' := abs_le.1 he
  have hr0 : 1 / 4 ≤ r := by
    have h2 : 1 / 2 ≤ 1 / mx := by rw [le_div_iff₀ hmp]; linarith
    linarith [he'.1]
  have hm : mx * (1 / mx) = 1 := by field_simp
  have hub : s * r ≤ 1 + 1 / 2 ^ 53 := by
    have : mx * r ≤ mx * (1 / mx + 1 / 2 ^ 53 * (1 / mx)) := mul_le_mul_of_nonneg_left (by linarith [he'.2]) hmp.le
    have h2 : s * r ≤ mx * r := mul_le_mul_of_nonneg_right hsm (by linarith)
    nlinarith
  have hmul : (double.rounding ℚ).mul (.fin s) (.fin r) = double.round (s * r) := rfl
  rw [hmul]
  rcases hs' with rfl | hs'
  · refine ⟨0, ?_, le_rfl, zero_le_one, by simp⟩
    rw [zero_mul]
    exact (double.rounding ℚ).zero
  · have hlow : 1 / 2 ^ 60 ≤ s * r := by nlinarith
    obtain ⟨y, hy, -, hye⟩ := round_mid hlow (hub.trans (by norm_num))
    have hye' := abs_le.1 hye
    have hy0 : 0 < y := by nlinarith
    refine ⟨y, hy, hy0.le, ?_, ⟨fun h => absurd h hy0.ne', fun h => ?_⟩⟩
    · have h1 : double.round (1 + 1 / 2 ^ 53 : ℚ) = .fin 1 := by decide +kernel
      have := (double.rounding ℚ).mono _ _ hub
      change double.round (s * r) ≤ double.round (1 + 1 / 2 ^ 53 : ℚ) at this
      rw [hy, h1] at this
      exact XR.fin_le_fin.1 this
    · rw [h] at hs'
      norm_num at hs'

/-- **C242**: in double precision, a random sparse matrix is a similarity matrix, too: exactly symmetric, all entries between 0 and 1,
exact ones on the diagonal, and off the diagonal the drawn cells with positive values and their mirror images are the entries
which are not zero. -/
theorem C242 {n : ℕ} (hn : 0 < n) (d : InOut.Draw ℚ n) (hg : Grid d) (hd : d.cells = ∅ ∨ ∃ p ∈ d.cells, d.val p.1 p.2 ≠ 0) :
    ∃ M : Fin n → Fin n → ℚ, randomSparse (double.rounding ℚ) d = .ok (fun i j => .fin (M i j)) ∧ (∀ i j, M i j = M j i) ∧
      (∀ i j, 0 ≤ M i j ∧ M i j ≤ 1) ∧ (∀ i, M i i = 1) ∧
      ∀ i j, i ≠ j → (M i j ≠ 0 ↔ ((i, j) ∈ d.cells ∧ d.val i j ≠ 0) ∨ ((j, i) ∈ d.cells ∧ d.val j i ≠ 0)) := by
  have hat0 := InOut.at_nonneg d
  have hat : ∀ i j, d.at i j = 0 ∨ 1 / 2 ^ 53 ≤ d.at i j := by
    intro i j
    unfold InOut.Draw.at
    split_ifs
    · obtain ⟨z, hz⟩ := hg i j
      rw [hz]
      rcases Nat.eq_zero_or_pos z with rfl | h
      · simp
      · right
        have : (1 : ℚ) ≤ z := by exact_mod_cast h
        exact div_le_div_of_nonneg_right this (by positivity)
    · exact .inl rfl
  have hat1 : ∀ i j, d.at i j ≤ 1 := by
    intro i j
    unfold InOut.Draw.at
    split_ifs
    · exact (d.lt_one i j).le
    · norm_num
  -- the symmetric sum
  have hS : ∀ i j, ∃ s, (double.rounding ℚ).add (.fin (d.at i j)) (.fin (d.at j i)) = .fin s ∧ 0 ≤ s ∧ s ≤ 2 ∧
      (s = 0 ∨ 1 / 2 ^ 54 ≤ s) ∧ (s = 0 ↔ d.at i j = 0 ∧ d.at j i = 0) := by
    intro i j
    have hadd : (double.rounding ℚ).add (.fin (d.at i j)) (.fin (d.at j i)) = double.round (d.at i j + d.at j i) := rfl
    rw [hadd]
    by_cases h : d.at i j = 0 ∧ d.at j i = 0
    · refine ⟨0, ?_, le_rfl, by norm_num, .inl rfl, by simp [h]⟩
      rw [h.1, h.2, add_zero]
      exact (double.rounding ℚ).zero
    · have hlow : 1 / 2 ^ 53 ≤ d.at i j + d.at j i := by
        rcases hat i j with h1 | h1 <;> rcases hat j i with h2 | h2
        · exact absurd ⟨h1, h2⟩ h
        · linarith [hat0 i j]
        · linarith [hat0 j i]
        · linarith [hat0 j i]
      have hup : d.at i j + d.at j i ≤ 2 := by linarith [hat1 i j, hat1 j i]
      obtain ⟨y, hy, -, he⟩ := round_mid (x := d.at i j + d.at j i) (by linarith) (by linarith)
      have he' := abs_le.1 he
      have hy0 : 1 / 2 ^ 54 ≤ y := by linarith
      refine ⟨y, hy, by linarith, ?_, .inr hy0, ⟨fun h' => by rw [h'] at hy0; norm_num at hy0, fun h' => absurd h' h⟩⟩
      have h2 : double.round (2 : ℚ) = .fin 2 := by decide +kernel
      have := (double.rounding ℚ).mono _ _ hup
      change double.round _ ≤ double.round (2 : ℚ) at this
      rw [hy, h2] at this
      exact XR.fin_le_fin.1 this
  choose S hSe hS0 hS2 hSl hSz using hS
  have hSsym : ∀ i j, S i j = S j i := by
    intro i j
    have h1 := hSe i j
    rw [add_comm', hSe j i] at h1
    exact (XR.fin.inj h1).symm
  have hmem : ∀ i j, d.at i j ≠ 0 ↔ (i, j) ∈ d.cells ∧ d.val i j ≠ 0 := by
    intro i j
    unfold InOut.Draw.at
    split_ifs with h <;> simp [h]
  -- the maximum
  obtain ⟨mx, hmx⟩ : ∃ mx : XR ℚ, mx = (Finset.univ : Finset (Fin n × Fin n)).sup' ⟨(⟨0, hn⟩, ⟨0, hn⟩), Finset.mem_univ _⟩
    (fun p => (double.rounding ℚ).add (.fin (d.at p.1 p.2)) (.fin (d.at p.2 p.1))) := ⟨_, rfl⟩
  obtain ⟨p, -, hp⟩ := Finset.exists_mem_eq_sup' (s := (Finset.univ : Finset (Fin n × Fin n)))
    ⟨(⟨0, hn⟩, ⟨0, hn⟩), Finset.mem_univ _⟩
    (fun p => (double.rounding ℚ).add (.fin (d.at p.1 p.2)) (.fin (d.at p.2 p.1)))
  rw [← hmx, hSe] at hp
  have hle : ∀ i j, S i j ≤ S p.1 p.2 := by
    intro i j
    have := Finset.le_sup' (fun p : Fin n × Fin n => (double.rounding ℚ).add (.fin (d.at p.1 p.2)) (.fin (d.at p.2 p.1)))
      (Finset.mem_univ (i, j))
    rw [← hmx, hp, hSe] at this
    exact XR.fin_le_fin.1 this
  have hmp : d.cells = ∅ ∨ 1 / 2 ^ 54 ≤ S p.1 p.2 := by
    rcases hd with h | ⟨q, hq, hv⟩
    · exact .inl h
    · right
      rcases hSl q.1 q.2 with h | h
      · exact absurd ((hSz _ _).1 h).1 ((hmem _ _).2 ⟨hq, hv⟩)
      · exact h.trans (hle _ _)
  have hE : ∀ i j, ∃ y, (if (i, j) ∈ d.cells ∨ (j, i) ∈ d.cells then
      (double.rounding ℚ).mul ((double.rounding ℚ).add (.fin (d.at i j)) (.fin (d.at j i))) ((double.rounding ℚ).div (.fin 1) mx)
      else (.fin 0 : XR ℚ)) = .fin y ∧ 0 ≤ y ∧ y ≤ 1 ∧ (y = 0 ↔ S i j = 0) := by
    intro i j
    split_ifs with h
    · have hm : 1 / 2 ^ 54 ≤ S p.1 p.2 := by
        rcases hmp with h' | h'
        · rw [h'] at h
          simp at h
        · exact h'
      rw [hSe, hp]
      exact mul_recip_le_one (hS0 i j) (hle i j) hm (hS2 _ _) (hSl i j)
    · refine ⟨0, rfl, le_rfl, zero_le_one, ?_⟩
      push Not at h
      simp [hSz, InOut.at_zero d h.1, InOut.at_zero d h.2]
  choose E hEe hE0 hE1 hEz using hE
  have hEsym : ∀ i j, E i j = E j i := by
    intro i j
    apply XR.fin.inj
    rw [← hEe i j, ← hEe j i, hSe, hSe, hSsym i j]
    congr 1
    exact propext or_comm
  refine ⟨fun i j => if i = j then 1 else E i j, ?_, ?_, ?_, ?_, ?_⟩
  · unfold randomSparse
    rw [dif_pos hn]
    simp only [← hmx, hEe]
    congr 1
    funext i j
    by_cases hij : i = j
    · subst hij
      simp only [if_true]
      show (double.rounding ℚ).add (double.round (E i i + -E i i)) (.fin 1) = .fin 1
      rw [add_neg_cancel, show double.round (0 : ℚ) = .fin 0 from (double.rounding ℚ).zero]
      show double.round (0 + 1 : ℚ) = .fin 1
      rw [zero_add]
      exact (double.rounding ℚ).one
    · simp only [if_neg hij]
  · intro i j
    by_cases hij : i = j
    · subst hij; rfl
    · simp only [if_neg hij, if_neg (Ne.symm hij), hEsym i j]
  · intro i j
    dsimp only
    split_ifs
    · exact ⟨zero_le_one, le_rfl⟩
    · exact ⟨hE0 i j, hE1 i j⟩
  · intro i
    simp
  · intro i j hij
    simp only [if_neg hij, ne_eq, hEz, hSz, not_and_or]
    exact or_congr (hmem i j) (hmem j i)

/-- The draws of a matrix with two rows: the hypotheses of `C242` hold. -/
example : ∃ M : Fin 2 → Fin 2 → ℚ, randomSparse (double.rounding ℚ)
    (⟨{(0, 1), (1, 1)}, fun _ j => if j = 1 then 49 / 2 ^ 53 else 0, by decide +kernel, by decide +kernel⟩ : InOut.Draw ℚ 2) =
      .ok (fun i j => .fin (M i j)) ∧ M 0 1 = M 1 0 ∧ M 0 0 = 1 := by
  obtain ⟨M, h, h1, -, h2, -⟩ := C242 (by norm_num)
    (⟨{(0, 1), (1, 1)}, fun _ j => if j = 1 then 49 / 2 ^ 53 else 0, by decide +kernel, by decide +kernel⟩ : InOut.Draw ℚ 2)
    (by
      intro i j
      by_cases h : j = 1
      · exact ⟨49, by simp [h]⟩
      · exact ⟨0, by simp [h]⟩) (.inr ⟨(0, 1), by decide, by decide +kernel⟩)
  exact ⟨M, h, h1 0 1, h2 0⟩

/-- The quotients are not always the nearest floats, since the entries are multiplied by the rounded inverse: with one cell drawn, the
largest similarity is not 1. -/
theorem C242_largest : (do
    let M ← randomSparse (double.rounding ℚ)
      (⟨{(0, 1)}, fun _ _ => 49 / 2 ^ 53, by decide +kernel, by decide +kernel⟩ : InOut.Draw ℚ 2)
    pure (M 0 0, M 0 1, M 1 0, M 1 1) : Py (XR ℚ × XR ℚ × XR ℚ × XR ℚ)) =
      .ok (.fin 1, .fin (1 - 1 / 2 ^ 53), .fin (1 - 1 / 2 ^ 53), .fin 1) := by
  decide +kernel

end Rounding

end HubToolbox
