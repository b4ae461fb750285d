import Verif.Rounding.SingleModel
import Verif.MPPar.SparseLemmas

/-!
# Sparse Mutual Proximity with results in single precision
-/

set_option autoImplicit false

namespace HubToolbox.Spec

/-- The entries of `M'` are those of `M`, each rounded once. -/
def RoundedOnce (R : Rounding ℝ) {n : ℕ} (M M' : Fin n → Fin n → XR ℝ) : Prop := ∀ i j, M' i j = R.up (M i j)

end HubToolbox.Spec

namespace HubToolbox.MPPar

open HubToolbox Spec

theorem up_add_zero (R : Rounding ℝ) (a : XR ℝ) : R.add (R.up a) (.fin 0) = R.up a ∧ R.add (.fin 0) (R.up a) = R.up a := by
  have h := Rounding.float_up (R := R) a
  unfold Rounding.Float at h
  unfold Rounding.add
  constructor
  · have : XR.add (R.up a) (.fin 0) = R.up a := by cases R.up a <;> simp [XR.add]
    rw [this, h]
  · have : XR.add (.fin 0) (R.up a) = R.up a := by cases R.up a <;> simp [XR.add]
    rw [this, h]

theorem sparseFillSingle_apply {R : Rounding ℝ} (hR : R.rnd (1 / 2) = .fin (1 / 2)) {n : ℕ} (mn : ℤ) (S : Fin n → Fin n → ℝ)
    (f : Fin n → Fin n → XR ℝ) (i j : Fin n) : sparseFillSingle R mn S f i j = R.up (sparseFill mn S f i j) := by
  rw [sparseFill_apply]
  unfold sparseFillSingle
  simp only [foldl_if (fun i => (MPEmp.nnz (S i) : ℤ) ≤ mn), List.mem_finRange, true_and]
  by_cases hi : (MPEmp.nnz (S i) : ℤ) ≤ mn
  · simp only [hi, if_true]
  rw [if_neg hi, if_neg hi]
  rcases lt_trichotomy i j with h | h | h
  · simp only [hi, h.le, h.not_ge, h, h.ne, h.ne', not_false_eq_true, and_self, and_false, if_true, if_false]
    exact (up_add_zero R _).1
  · subst h
    simp only [hi, le_refl, not_false_eq_true, and_self, if_true]
    rw [Rounding.up_fin, hR, Rounding.add, XR.add]
    norm_num
  · by_cases hj : (MPEmp.nnz (S j) : ℤ) ≤ mn
    · simp only [hj, h.not_ge, h.not_gt, h.ne', not_true_eq_false, false_and, and_false, if_true, if_false]
      rw [Rounding.add, XR.add, add_zero]
    · simp only [hj, h.le, h.not_ge, h.not_gt, h.ne, h.ne', not_false_eq_true, and_self, and_false, if_true, if_false]
      exact (up_add_zero R _).2

/-- **C263**, first part: the Gamma and Gumbel variants return their exact results, each entry rounded once to single precision. -/
theorem C263_rounded {R : Rounding ℝ} (hR : R.rnd (1 / 2) = .fin (1 / 2)) (F : Dists) {n : ℕ} (S : Fin n → Fin n → ℝ) (mn : ℤ) (train : List (Fin n)) :
    (∀ M, gammaiSparse F S mn train = .ok M → ∃ M', gammaiSingle R F S mn train = .ok M' ∧ RoundedOnce R M M') ∧
    (∀ M, gumbelSparse S mn train = .ok M → ∃ M', gumbelSingle R S mn train = .ok M' ∧ RoundedOnce R M M') ∧
    (∀ e, gammaiSparse F S mn train = .error e → gammaiSingle R F S mn train = .error e) ∧
    (∀ e, gumbelSparse S mn train = .error e → gumbelSingle R S mn train = .error e) := by
  unfold gammaiSparse gammaiSingle gumbelSparse gumbelSingle
  by_cases hb : badDiag S
  · simp only [hb, if_true]
    exact ⟨fun M h => (nomatch h), fun M h => (nomatch h), fun e h => h, fun e h => h⟩
  · simp only [hb, if_false]
    refine ⟨?_, ?_, fun e h => (nomatch h), fun e h => (nomatch h)⟩
    · intro M h
      obtain rfl := Except.ok.inj h
      exact ⟨_, rfl, fun i j => sparseFillSingle_apply hR mn S _ i j⟩
    · intro M h
      obtain rfl := Except.ok.inj h
      exact ⟨_, rfl, fun i j => sparseFillSingle_apply hR mn S _ i j⟩

/-- **C263**: consequences of rounding once: symmetry, the unit interval, self similarities and zeros are preserved, and the order of two
similarities is never reversed. -/
theorem C263_preserved {R : Rounding ℝ} {n : ℕ} {M M' : Fin n → Fin n → XR ℝ} (h : RoundedOnce R M M') :
    ((∀ i j, M i j = M j i) → ∀ i j, M' i j = M' j i) ∧
    (∀ i j x, M i j = .fin x → 0 ≤ x → x ≤ 1 → ∃ y, M' i j = .fin y ∧ 0 ≤ y ∧ y ≤ 1) ∧
    (∀ i j, M i j = .fin 1 → M' i j = .fin 1) ∧ (∀ i j, M i j = .fin 0 → M' i j = .fin 0) ∧
    ∀ i j a b x y, M i j = .fin x → M a b = .fin y → x ≤ y → M' i j ≤ M' a b := by
  refine ⟨?_, ?_, ?_, ?_, ?_⟩
  · intro hs i j
    rw [h, h, hs]
  · intro i j x hx h0 h1
    rw [h, hx]
    exact Rounding.unit h0 h1
  · intro i j hx
    rw [h, hx]; exact R.one
  · intro i j hx
    rw [h, hx]; exact R.zero
  · intro i j a b x y hx hy hxy
    rw [h, h, hx, hy]
    exact R.mono x y hxy

/-- Similarities of objects with too few neighbours, as returned. -/
theorem single_kept (R : Rounding ℝ) (F : Dists) {n : ℕ} (hn : 0 < n) (S : Fin n → Fin n → ℝ) (hS : ∀ i, S i i = 1) (mn : ℤ) (train : List (Fin n)) :
    ∃ M G, gammaiSingle R F S mn train = .ok M ∧ gumbelSingle R S mn train = .ok G ∧
      ∀ i, (rowCount S i : ℤ) ≤ mn → ∀ j, M i j = R.rnd (S i j) ∧ G i j = R.rnd (S i j) := by
  unfold gammaiSingle gumbelSingle
  rw [if_neg (not_badDiag S hn hS), if_neg (not_badDiag S hn hS)]
  refine ⟨_, _, rfl, rfl, ?_⟩
  intro i hi j
  rw [← nnz_eq] at hi
  unfold sparseFillSingle
  simp only [hi, if_true]
  exact ⟨rfl, rfl⟩

/-- **C263**, last part: objects with too few neighbours retain their original similarities exactly if these are numbers of single precision. -/
theorem C263_kept_partial (R : Rounding ℝ) (F : Dists) {n : ℕ} (hn : 0 < n) (S : Fin n → Fin n → ℝ) (hS : ∀ i, S i i = 1) (mn : ℤ)
    (train : List (Fin n)) : ∃ M G, gammaiSingle R F S mn train = .ok M ∧ gumbelSingle R S mn train = .ok G ∧
      ∀ i, (rowCount S i : ℤ) ≤ mn → ∀ j, (M i j = .fin (S i j) ↔ R.Float (.fin (S i j))) ∧ (G i j = .fin (S i j) ↔ R.Float (.fin (S i j))) := by
  obtain ⟨M, G, hM, hG, hv⟩ := single_kept R F hn S hS mn train
  refine ⟨M, G, hM, hG, ?_⟩
  intro i hi j
  rw [(hv i hi j).1, (hv i hi j).2]
  exact ⟨Iff.rfl, Iff.rfl⟩

/-! ### Single precision -/

/-- Rounding to single precision. -/
noncomputable abbrev f32 : Rounding ℝ := Ieee.rounding ℝ Ieee.single

theorem f32_half : f32.rnd (1 / 2) = .fin (1 / 2) := by
  have e : ((1 : ℤ) : ℝ) * 2 ^ (-1 : ℤ) = 1 / 2 := by norm_num
  have h := Ieee.nearest_rep (K := ℝ) Ieee.single (m := 1) (t := -1) (by norm_num [Ieee.single]) (by norm_num [Ieee.single])
  rw [e] at h
  have h2 := Ieee.round_of_lt (K := ℝ) Ieee.single (x := 1/2) (by
    rw [h, abs_of_pos (by norm_num)]
    have := Ieee.one_lt_top (K := ℝ) Ieee.single
    linarith)
  rw [h] at h2
  exact h2

/-- Similarities up to 2^-150 become zero, i.e. missing. -/
theorem f32_tiny {x : ℝ} (h0 : 0 < x) (h : x ≤ 2 ^ (-150 : ℤ)) : f32.rnd x = .fin 0 := by
  have hlog : Int.log 2 |x| ≤ -126 := by
    rw [abs_of_pos h0]
    have h1 : x < ((2 : ℕ) : ℝ) ^ (-125 : ℤ) := by
      push_cast
      exact lt_of_le_of_lt h (zpow_lt_zpow_right₀ one_lt_two (by norm_num))
    have := (Int.lt_zpow_iff_log_lt (b := 2) (by norm_num) h0).1 h1
    omega
  have hs : Ieee.single.spacing x = -149 := by
    unfold Ieee.spacing
    rw [max_eq_right (show Int.log 2 |x| ≤ Ieee.single.emin from hlog)]
    rfl
  have hq : x / 2 ^ (-149 : ℤ) ≤ 1 / 2 := by
    rw [div_le_iff₀ (zpow_pos two_pos _)]
    have : (2 : ℝ) ^ (-150 : ℤ) = 1 / 2 * 2 ^ (-149 : ℤ) := by
      rw [show (-150 : ℤ) = -1 + -149 by norm_num, zpow_add₀ two_ne_zero]; norm_num
    rw [← this]; exact h
  have hq0 : 0 < x / 2 ^ (-149 : ℤ) := div_pos h0 (zpow_pos two_pos _)
  have hfl : ⌊x / 2 ^ (-149 : ℤ)⌋ = 0 := by
    rw [Int.floor_eq_iff]
    constructor
    · push_cast; exact hq0.le
    · push_cast; linarith
  have hev : Ieee.even (x / 2 ^ (-149 : ℤ)) = 0 := by
    unfold Ieee.even
    rw [hfl]
    have hfr : Int.fract (x / 2 ^ (-149 : ℤ)) = x / 2 ^ (-149 : ℤ) := by
      unfold Int.fract; rw [hfl]; simp
    rw [hfr]
    rcases hq.eq_or_lt with e | e
    · rw [if_neg (by rw [e]; exact lt_irrefl _), if_neg (by rw [e]; exact lt_irrefl _)]
      rfl
    · rw [if_pos e]
  have hn : Ieee.single.nearest x = 0 := by
    unfold Ieee.nearest
    rw [hs, hev]
    simp
  have := Ieee.round_of_lt (K := ℝ) Ieee.single (x := x) (by rw [hn]; simpa using zpow_pos (two_pos (α := ℝ)) _)
  rw [hn] at this
  exact this

/-- Relative error of a similarity in the normal range. -/
theorem f32_error {x : ℝ} (h0 : 2 ^ (-126 : ℤ) ≤ x) (h1 : x ≤ 1) : ∃ y, f32.rnd x = .fin y ∧ |y - x| ≤ 2 ^ (-24 : ℤ) * x := by
  obtain ⟨y, hy, -, -⟩ := Rounding.unit (R := f32) (x := x) (le_trans (zpow_pos two_pos _).le h0) h1
  refine ⟨y, hy, ?_⟩
  have hx0 : 0 < x := lt_of_lt_of_le (zpow_pos two_pos _) h0
  have hyn : y = Ieee.single.nearest x := by
    have h2 : Ieee.single.round x = .fin y := hy
    unfold Ieee.round at h2
    split_ifs at h2
    injection h2 with h2
    exact h2.symm
  rw [hyn]
  refine (Ieee.abs_nearest_sub (K := ℝ) Ieee.single x).trans ?_
  have hl : (-126 : ℤ) ≤ Int.log 2 |x| := by
    rw [abs_of_pos hx0]
    exact (Int.zpow_le_iff_le_log (b := 2) (by norm_num) hx0).1 (by push_cast; exact h0)
  have hs : Ieee.single.spacing x = Int.log 2 |x| - 23 := by
    unfold Ieee.spacing
    rw [max_eq_left (show Ieee.single.emin ≤ Int.log 2 |x| from hl)]
    rfl
  have hle := Int.zpow_log_le_self (b := 2) (r := |x|) (by norm_num) (abs_pos.2 hx0.ne')
  rw [abs_of_pos hx0] at hle hs
  push_cast at hle
  rw [hs, zpow_sub₀ two_ne_zero]
  have e : (2 : ℝ) ^ Int.log 2 x / 2 ^ (23 : ℤ) / 2 = 2 ^ (-24 : ℤ) * 2 ^ Int.log 2 x := by
    rw [zpow_neg]; norm_num; ring
  rw [e]
  exact mul_le_mul_of_nonneg_left hle (zpow_pos two_pos _).le

/-- **C263** for single precision: the retained similarities are the original ones up to 2^-24 of their size, if they are at least 2^-126. -/
theorem C263_error_partial (F : Dists) {n : ℕ} (hn : 0 < n) (S : Fin n → Fin n → ℝ) (hS : ∀ i, S i i = 1) (mn : ℤ) (train : List (Fin n)) :
    ∃ M G, gammaiSingle f32 F S mn train = .ok M ∧ gumbelSingle f32 S mn train = .ok G ∧
      ∀ i, (rowCount S i : ℤ) ≤ mn → ∀ j, 2 ^ (-126 : ℤ) ≤ S i j → S i j ≤ 1 →
        ∃ y, M i j = .fin y ∧ G i j = .fin y ∧ |y - S i j| ≤ 2 ^ (-24 : ℤ) * S i j := by
  obtain ⟨M, G, hM, hG, hv⟩ := single_kept f32 F hn S hS mn train
  refine ⟨M, G, hM, hG, ?_⟩
  intro i hi j h0 h1
  obtain ⟨y, hy, he⟩ := f32_error h0 h1
  exact ⟨y, by rw [(hv i hi j).1, hy], by rw [(hv i hi j).2, hy], he⟩

/-- Two objects of a very small similarity. -/
noncomputable def tinySim : Fin 2 → Fin 2 → ℝ := fun i j => if i = j then 1 else 2 ^ (-200 : ℤ)

/-- **C263 is violated**: a double precision similarity of an object with too few neighbours is not retained; here the pair becomes a missing value. -/
theorem C263_violated (F : Dists) (train : List (Fin 2)) : tinySim 0 1 ≠ 0 ∧ (∀ i, (rowCount tinySim i : ℤ) ≤ 30) ∧
    ∃ M G, gammaiSingle f32 F tinySim 30 train = .ok M ∧ gumbelSingle f32 tinySim 30 train = .ok G ∧ M 0 1 = .fin 0 ∧ G 0 1 = .fin 0 := by
  have hv : tinySim 0 1 = 2 ^ (-200 : ℤ) := by simp [tinySim]
  have hrow : ∀ i, (rowCount tinySim i : ℤ) ≤ 30 := by
    intro i
    unfold rowCount
    have h2 : ((Finset.univ.filter (fun j => tinySim i j ≠ 0)).card : ℤ) ≤ (Finset.univ : Finset (Fin 2)).card := by
      exact_mod_cast Finset.card_filter_le _ _
    refine h2.trans (by simp)
  obtain ⟨M, G, hM, hG, hk⟩ := single_kept f32 F (by norm_num) tinySim (by intro i; simp [tinySim]) 30 train
  refine ⟨by rw [hv]; exact (zpow_pos two_pos _).ne', hrow, M, G, hM, hG, ?_, ?_⟩
  · rw [(hk 0 (hrow 0) 1).1, hv]
    exact f32_tiny (zpow_pos two_pos _) (zpow_le_zpow_right₀ one_le_two (by norm_num))
  · rw [(hk 0 (hrow 0) 1).2, hv]
    exact f32_tiny (zpow_pos two_pos _) (zpow_le_zpow_right₀ one_le_two (by norm_num))

/-- A number of double precision which is not one of single precision. -/
theorem f32_not_float : ¬ f32.Float (.fin (1 / 2 + 2 ^ (-30 : ℤ) : ℝ)) := by
  intro h
  set x : ℝ := 1 / 2 + 2 ^ (-30 : ℤ) with hx
  have hp : (0 : ℝ) < 2 ^ (-30 : ℤ) := zpow_pos two_pos _
  have hx0 : 0 < x := by rw [hx]; linarith
  have h2 : Ieee.single.round x = .fin x := h
  have hn : Ieee.single.nearest x = x := by
    unfold Ieee.round at h2
    split_ifs at h2
    injection h2
  have hl : (-1 : ℤ) ≤ Int.log 2 |x| := by
    rw [abs_of_pos hx0]
    exact (Int.zpow_le_iff_le_log (b := 2) (by norm_num) hx0).1 (by push_cast; rw [hx, zpow_neg]; norm_num)
  have hs : Ieee.single.spacing x = Int.log 2 |x| - 23 := by
    unfold Ieee.spacing
    rw [max_eq_left (show Ieee.single.emin ≤ Int.log 2 |x| from le_trans (by decide) hl)]
    rfl
  obtain ⟨d, hd⟩ := Int.le.dest (show (-24 : ℤ) ≤ Ieee.single.spacing x by rw [hs]; omega)
  unfold Ieee.nearest at hn
  set e := Ieee.even (x / 2 ^ Ieee.single.spacing x)
  rw [← hd, zpow_add₀ two_ne_zero, zpow_natCast] at hn
  have h64 : ((e * 2 ^ d * 64 : ℤ) : ℝ) = ((2 ^ 29 + 1 : ℤ) : ℝ) := by
    have e1 : x = (2 ^ 29 + 1) * 2 ^ (-30 : ℤ) := by rw [hx]; norm_num
    have e2 : (2 : ℝ) ^ (-24 : ℤ) = 64 * 2 ^ (-30 : ℤ) := by norm_num
    rw [e2, e1] at hn
    push_cast
    have : ((e : ℝ) * 2 ^ d * 64) * 2 ^ (-30 : ℤ) = (2 ^ 29 + 1) * 2 ^ (-30 : ℤ) := by rw [← hn]; ring
    have h3 := mul_right_cancel₀ hp.ne' this
    rw [h3]; norm_num
  have h65 : e * 2 ^ d * 64 = 2 ^ 29 + 1 := by exact_mod_cast h64
  omega

/-- Two objects of ordinary similarity. -/
noncomputable def plainSim : Fin 2 → Fin 2 → ℝ := fun i j => if i = j then 1 else 1 / 2 + 2 ^ (-30 : ℤ)

/-- **C263 is violated** by similarities of ordinary size, too: they are retained up to rounding only. -/
theorem C263_ordinary_violated (F : Dists) (train : List (Fin 2)) : (∀ i, (rowCount plainSim i : ℤ) ≤ 30) ∧
    ∃ M G, gammaiSingle f32 F plainSim 30 train = .ok M ∧ gumbelSingle f32 plainSim 30 train = .ok G ∧ M 0 1 ≠ .fin (plainSim 0 1) ∧
      G 0 1 ≠ .fin (plainSim 0 1) := by
  have hrow : ∀ i, (rowCount plainSim i : ℤ) ≤ 30 := by
    intro i
    unfold rowCount
    have h2 : ((Finset.univ.filter (fun j => plainSim i j ≠ 0)).card : ℤ) ≤ (Finset.univ : Finset (Fin 2)).card := by
      exact_mod_cast Finset.card_filter_le _ _
    exact h2.trans (by simp)
  have hv : plainSim 0 1 = 1 / 2 + 2 ^ (-30 : ℤ) := by simp [plainSim]
  obtain ⟨M, G, hM, hG, hk⟩ := C263_kept_partial f32 F (by norm_num) plainSim (by intro i; simp [plainSim]) 30 train
  refine ⟨hrow, M, G, hM, hG, ?_, ?_⟩
  · intro h
    have := ((hk 0 (hrow 0) 1).1).1 h
    rw [hv] at this
    exact f32_not_float this
  · intro h
    have := ((hk 0 (hrow 0) 1).2).1 h
    rw [hv] at this
    exact f32_not_float this

/-! ### Non-vacuity -/

example : f32.rnd (1 / 2) = .fin (1 / 2) := f32_half

example : ∃ M, gumbelSparse tinySim 30 (List.finRange 2) = .ok M := by
  unfold gumbelSparse
  rw [if_neg (not_badDiag tinySim (by norm_num) (by intro i; simp [tinySim]))]
  exact ⟨_, rfl⟩

end HubToolbox.MPPar
