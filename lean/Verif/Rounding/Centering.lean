import Verif.Rounding.GaussError
import Verif.Cent.Props

/-!
# Centering of vectors in floating-point arithmetic

`centering(X, 'vector', test_set_mask)` with all results of arithmetic operations rounded. The order in which `np.mean` adds the
rows is left open.

Simplification: one format is used for the whole computation (float64 data).
-/

set_option autoImplicit false

namespace HubToolbox

namespace Rounding

/-- `X - np.mean(X[train_ind], axis=0)` (`/repo/hub_toolbox/centering.py` lines 84-92) of an array of finite floats. `sum` is
the sum of a column of the training rows. -/
def centering {K : Type} [Field K] [LinearOrder K] (R : Rounding K) (sum : List (XR K) → XR K) {n m : ℕ} (X : Fin n → Fin m → K)
    (mask : Option (List ℤ)) (i : Fin n) (f : Fin m) : XR K :=
  let rows := LS.trainInd n mask
  R.sub (.fin (X i f)) (R.div (sum (rows.map (fun a => .fin (X a f)))) (R.ofNat rows.length))

/-- Without rounding this is the function of `Verif/Cent/Model.lean`. -/
theorem centering_exact {K : Type} [Field K] [LinearOrder K] [IsStrictOrderedRing K] {n m : ℕ} (X : Fin n → Fin m → K)
    (mask : Option (List ℤ)) (h : LS.trainInd n mask ≠ []) :
    Cent.centering X "vector" mask = .ok (centering (exact K) (fun l => l.foldl XR.add (.fin 0)) X mask) := by
  rw [Cent.C37_formula _ _ (by
    rw [← LS.trainInd_toFinset]
    exact List.toFinset_nonempty_iff _ |>.2 h)]
  congr 1
  funext i f
  have hs : ∀ (l : List (Fin n)) (a : K), (l.map (fun a => (.fin (X a f) : XR K))).foldl XR.add (.fin a) =
      .fin (a + (l.map (fun c => X c f)).sum) := by
    intro l
    induction l with
    | nil => intro a; simp
    | cons c l ih =>
      intro a
      simp only [List.map_cons, List.foldl_cons, List.sum_cons, XR.add]
      rw [ih, add_assoc]
  have hl : ((LS.trainInd n mask).length : K) ≠ 0 := by
    exact_mod_cast (List.length_pos_iff.2 h).ne'
  simp only [centering, exact_sub, exact_div, hs, zero_add, ofNat, exact_rnd, XR.div, if_neg hl, XR.sub]
  have hnd := LS.trainInd_nodup n mask
  unfold Spec.centroid
  rw [← LS.trainInd_toFinset, List.sum_toFinset _ hnd, List.toFinset_card_of_nodup hnd]
  simp only [XR.neg, XR.add, sub_eq_add_neg]

open Ieee (double)

/-- The mean as computed, for any sum which adds in some order. -/
theorem mean_any {sum : List (XR ℝ) → XR ℝ}
    (hsum : ∀ l, (∀ a ∈ l, (double.rounding ℝ).Float a) → (double.rounding ℝ).Sums l (sum l))
    (l : List ℝ) (h0 : 0 < l.length) (hm : l.length ≤ 2 ^ 40)
    {B : ℝ} (hB : ∀ x ∈ l, |x| ≤ B) (hB0 : 2 ^ (-400 : ℤ) ≤ B) (hB1 : B ≤ 2 ^ (400 : ℤ))
    (hf : ∀ x ∈ l, double.round x = .fin x) :
    ∃ m : ℝ, (double.rounding ℝ).div (sum (l.map .fin)) ((double.rounding ℝ).ofNat l.length) = .fin m ∧
      |m - l.sum / l.length| ≤ 2 * l.length * u * B := by
  have hok : ({ ProbLib.rounded with sum := sum } : ProbLib ℝ).Ok (double.rounding ℝ) :=
    { ProbLib.rounded_near.ok with sum_some_order := hsum }
  obtain ⟨s, y, h1, h2, h3⟩ := mean_near hok l h0 hm hB hB0 hB1 hf
  refine ⟨y, ?_, h3⟩
  rw [← h2]
  congr 1

/-- **C240**: in double precision, `centering` of vectors with values up to `B` returns the differences to the centroid of the
training objects, up to `(2 n + 4) · 2⁻⁵³ · B` for `n` training objects. -/
theorem C240 {sum : List (XR ℝ) → XR ℝ}
    (hsum : ∀ l, (∀ a ∈ l, (double.rounding ℝ).Float a) → (double.rounding ℝ).Sums l (sum l))
    {n m : ℕ} (hn : n ≤ 2 ^ 40) (X : Fin n → Fin m → ℝ) (mask : Option (List ℤ)) (h0 : (Spec.training n mask).Nonempty)
    {B : ℝ} (hB0 : 2 ^ (-400 : ℤ) ≤ B) (hB1 : B ≤ 2 ^ (400 : ℤ)) (hX : ∀ i f, |X i f| ≤ B)
    (hf : ∀ i f, double.round (X i f) = .fin (X i f)) (i : Fin n) (f : Fin m) :
    ∃ z : ℝ, centering (double.rounding ℝ) sum X mask i f = .fin z ∧
      |z - (X i f - (∑ a ∈ Spec.training n mask, X a f) / (Spec.training n mask).card)| ≤
        (2 * (Spec.training n mask).card + 4) * 2 ^ (-53 : ℤ) * B := by
  have hnd := LS.trainInd_nodup n mask
  have hu := u_pos
  have hB' : 0 < B := (zpow_pos two_pos _).trans_le hB0
  rw [← LS.trainInd_toFinset] at h0 ⊢
  rw [List.sum_toFinset _ hnd, List.toFinset_card_of_nodup hnd]
  set rows := LS.trainInd n mask with hrows
  have hlen : 0 < rows.length := by
    obtain ⟨a, ha⟩ := h0
    exact List.length_pos_of_mem (List.mem_toFinset.1 ha)
  have hle : rows.length ≤ 2 ^ 40 := (by simpa using hnd.length_le_card : rows.length ≤ n).trans hn
  obtain ⟨c, hc, he⟩ := mean_any hsum (rows.map (fun a => X a f)) (by simpa using hlen) (by simpa using hle) (B := B)
    (by simp only [List.mem_map]; rintro x ⟨a, -, rfl⟩; exact hX a f) hB0 hB1
    (by simp only [List.mem_map]; rintro x ⟨a, -, rfl⟩; exact hf a f)
  simp only [List.map_map, List.length_map] at hc he
  set s := (rows.map (fun a => X a f)).sum with hs
  set N : ℝ := (rows.length : ℝ) with hN
  have hN1 : 1 ≤ N := by
    rw [hN]
    exact_mod_cast hlen
  have hmu : N * u ≤ 1 / 2 ^ 13 := mu_le hle
  have hmean : |s / N| ≤ B := by
    have := sum_le_of_abs_le (l := rows.map (fun a => X a f)) (B := B)
      (by simp only [List.mem_map]; rintro x ⟨a, -, rfl⟩; exact hX a f)
    rw [abs_div, abs_of_pos (show 0 < N by linarith), div_le_iff₀ (show 0 < N by linarith), mul_comm]
    refine le_trans ?_ (this.trans_eq (by simp [hN]))
    rw [hs]
    clear * -
    generalize rows.map (fun a => X a f) = l
    induction l with
    | nil => simp
    | cons a l ih =>
      simp only [List.sum_cons, List.map_cons]
      exact (abs_add_le _ _).trans (by linarith)
  have hc1 : |c| ≤ 2 * B := by
    have h1 := abs_add_le (c - s / N) (s / N)
    rw [sub_add_cancel] at h1
    nlinarith
  obtain ⟨z, hz, -, hze⟩ := Ieee.round_bound double (x := X i f - c) (b := 3 * B)
    ((abs_sub _ _).trans (by linarith [hX i f]))
    (double_emin (a := -400) (by norm_num) (by linarith))
    (double_emax (a := 400 + (2 : ℕ)) (by norm_num) (mul_two_zpow_le (by norm_num) hB'.le hB1))
  refine ⟨z, ?_, ?_⟩
  · unfold centering
    simp only [← hrows]
    have : (fun a => (XR.fin (X a f) : XR ℝ)) = XR.fin ∘ (fun a => X a f) := rfl
    rw [this, hc]
    exact hz
  · rw [← u_eq]
    have h1 := abs_sub_le z (X i f - c) (X i f - s / N)
    have h2 : |X i f - c - (X i f - s / N)| = |c - s / N| := by
      rw [← abs_neg]
      congr 1
      ring
    rw [h2] at h1
    have h3 : |z - (X i f - c)| ≤ u * (3 * B) := hze
    nlinarith [mul_pos hu hB']

/-- **C241** does not hold: three objects with the value 0.1 (the nearest double) are not moved to the origin. -/
theorem C241_violated :
    let x : ℚ := 3602879701896397 / 2 ^ 55
    (∀ i f, Ieee.double.round ((fun _ _ => x : Fin 3 → Fin 1 → ℚ) i f) = .fin x) ∧
    ∀ i f, centering (Ieee.double.rounding ℚ) (fun l => l.foldl (Ieee.double.rounding ℚ).add (.fin 0))
      (fun _ _ => x : Fin 3 → Fin 1 → ℚ) none i f = .fin (-(1 / 2 ^ 56)) := by
  decide +kernel

/-- **C241** for integers: if the sum of the absolute values is representable and all training objects have the same value,
they are moved to the origin exactly, whatever the order of the additions. -/
theorem C241_partial {sum : List (XR ℝ) → XR ℝ}
    (hsum : ∀ l, (∀ a ∈ l, (double.rounding ℝ).Float a) → (double.rounding ℝ).Sums l (sum l))
    {n m : ℕ} (hn : n ≤ 2 ^ 40) (X : Fin n → Fin m → ℝ) (mask : Option (List ℤ)) (c : Fin m → ℤ)
    (hc : ∀ i ∈ Spec.training n mask, ∀ f, X i f = c f) (hB : ∀ f, n * |c f| ≤ 2 ^ 53) (i : Fin n)
    (hi : i ∈ Spec.training n mask) (f : Fin m) :
    centering (double.rounding ℝ) sum X mask i f = .fin 0 := by
  have hnd := LS.trainInd_nodup n mask
  rw [← LS.trainInd_toFinset] at hi hc
  set rows := LS.trainInd n mask with hrows
  have hlen : 0 < rows.length := List.length_pos_of_mem (List.mem_toFinset.1 hi)
  have hln : rows.length ≤ n := by simpa using hnd.length_le_card
  have hle : rows.length ≤ 2 ^ 40 := hln.trans hn
  have hrep : rows.map (fun a => X a f) = List.replicate rows.length (c f : ℝ) := by
    rw [List.eq_replicate_iff]
    refine ⟨by simp, ?_⟩
    simp only [List.mem_map]
    rintro x ⟨a, ha, rfl⟩
    exact hc a (List.mem_toFinset.2 ha) f
  have hmap : rows.map (fun a => (XR.fin (X a f) : XR ℝ)) =
      (List.replicate rows.length (c f)).map (fun z : ℤ => .fin ((z : ℝ) * 2 ^ (0 : ℤ))) := by
    have : (fun a => (XR.fin (X a f) : XR ℝ)) = XR.fin ∘ (fun a => X a f) := rfl
    rw [this, ← List.map_map, hrep]
    simp
  have hcf : |c f| ≤ 2 ^ 53 := by
    refine le_trans ?_ (hB f)
    have : (1 : ℤ) ≤ n := by exact_mod_cast hlen.trans_le hln
    nlinarith [abs_nonneg (c f)]
  have hfloat : ∀ z : ℤ, |z| ≤ 2 ^ 53 → double.round (z : ℝ) = .fin (z : ℝ) := fun z hz => by
    have := Ieee.round_grid (K := ℝ) double (z := z) (t := 0) (by simpa [double] using hz) (by norm_num [double])
      (by norm_num [double])
    simpa using this
  have hsumv : sum (rows.map (fun a => .fin (X a f))) = .fin ((rows.length : ℝ) * c f) := by
    have h := hsum (rows.map (fun a => .fin (X a f))) (by
      intro a ha
      rw [hmap] at ha
      simp only [List.mem_map, List.mem_replicate] at ha
      obtain ⟨z, ⟨-, rfl⟩, rfl⟩ := ha
      rw [zpow_zero, mul_one]
      exact hfloat _ hcf)
    rw [hmap] at h ⊢
    rw [Ieee.sum_grid double h ?_ (by norm_num [double]) (by norm_num [double])]
    · simp
    · simp only [List.map_replicate, List.sum_replicate, nsmul_eq_mul]
      refine le_trans ?_ (hB f)
      exact mul_le_mul_of_nonneg_right (by exact_mod_cast hln) (abs_nonneg _)
  unfold centering
  simp only [← hrows]
  rw [hsumv, div_ofNat _ hlen hle, mul_div_cancel_left₀ _ (by exact_mod_cast hlen.ne'), hfloat _ hcf,
    hc i hi f]
  show double.round (c f + -(c f : ℝ)) = _
  rw [add_neg_cancel]
  simpa using hfloat 0 (by norm_num)

/-- The hypotheses of `C240` hold for adding one row after the other. -/
example (i : Fin 3) (f : Fin 1) := C240 (sum := fun l => l.foldl (double.rounding ℝ).add (.fin 0))
  (fun l hl => sums_foldl _ l hl) (by norm_num) (fun i _ => (i.val : ℝ) : Fin 3 → Fin 1 → ℝ) (some [1])
  ⟨0, by decide⟩ (B := 2)
  ((two_zpow_le (show (-400 : ℤ) ≤ 1 by norm_num)).trans_eq (by norm_num))
  (by simpa using two_zpow_le (show (1 : ℤ) ≤ 400 by norm_num)) (by intro i _; fin_cases i <;> norm_num)
  (by
    intro i _
    have := Ieee.round_grid (K := ℝ) double (z := i.val) (t := 0) (by norm_num [double]; omega) (by norm_num [double])
      (by norm_num [double])
    simpa using this) i f

/-- The hypotheses of `C241_partial` hold for three objects with the value 7. -/
example (i : Fin 3) (f : Fin 1) := C241_partial (sum := fun l => l.foldl (double.rounding ℝ).add (.fin 0))
  (fun l hl => sums_foldl _ l hl) (by norm_num) (fun _ _ => 7 : Fin 3 → Fin 1 → ℝ) none (fun _ => 7) (by norm_num)
  (by norm_num) i (by revert i; decide) f

end Rounding

end HubToolbox
