import Verif.Relations.Stable
import Verif.Rounding.CosineError

/-!
# Experiments on cosine distances in double precision (C296)
-/

set_option autoImplicit false

namespace HubToolbox.Relations

open HubToolbox Ieee Rounding

/-- **C296**: let the cosines of the angles of each vector with the others differ by more than `8 (d + 2) · 2⁻⁵³` for `d` features. Then hubness and k-NN
classification of the distances computed by `cosine_distance` in double precision are those of the exact cosine distances. -/
theorem C296 (L : CosLib ℝ) (hL : L.Near) {n d : ℕ} (hd : d ≤ 2 ^ 46) (X : Fin n → Fin d → ℝ) (hX : CosModerate X)
    (hgap : ∀ i a b, a ≠ i → b ≠ i → a ≠ b → 8 * (d + 2) * 2 ^ (-53 : ℤ) < |Spec.cosAngle (X i) (X a) - Spec.cosAngle (X i) (X b)|) :
    Spec.SameExperiments (Dist.cosineDistance X) ((double.rounding ℝ).cosineDistance L (fun i f => .fin (X i f))) := by
  choose z hz _ he using fun i j => C209 L hL hd X hX i j
  have ez : (double.rounding ℝ).cosineDistance L (fun i f => .fin (X i f)) = LS.toXR z := by
    funext i j
    exact hz i j
  have ex : Dist.cosineDistance X = LS.toXR fun i j => 1 - Spec.cosAngle (X i) (X j) := by
    funext i j
    obtain ⟨v, hv, rfl, -⟩ := Dist.C143_value_partial X i j (hX.nonzero i) (hX.nonzero j)
    exact hv
  rw [ex, ez]
  refine gap_same fun i a b ha hb hab => ?_
  have g := hgap i a b ha hb hab
  have ea := abs_le.1 (he i a)
  have eb := abs_le.1 (he i b)
  have hp : 0 ≤ 4 * ((d : ℝ) + 2) * 2 ^ (-53 : ℤ) := by positivity
  rcases lt_abs.1 g with g | g
  · exact Or.inl ⟨by linarith, by linarith [ea.2, eb.1]⟩
  · exact Or.inr ⟨by linarith, by linarith [ea.1, eb.2]⟩

/-- The hypotheses of C296 hold for three vectors in the plane. -/
example := C296 CosLib.rounded CosLib.rounded_near (by norm_num) plane3 plane3_moderate (by
  have h25 : √(25 : ℝ) = 5 := by rw [show (25 : ℝ) = 5 ^ 2 by norm_num, Real.sqrt_sq (by norm_num)]
  have h5 : 0 < √(5 : ℝ) := Real.sqrt_pos.2 (by norm_num)
  have h5' : √(5 : ℝ) < 3 := by rw [Real.sqrt_lt' (by norm_num)]; norm_num
  have hn : ∀ i, Spec.vecNorm (plane3 i) = ![5, 1, √5] i := by
    intro i
    fin_cases i <;> simp [Spec.vecNorm, plane3, Fin.sum_univ_two] <;> norm_num [h25]
  have key : ∀ i a, Spec.cosAngle (plane3 i) (plane3 a) = (∑ f, plane3 i f * plane3 a f) / (![5, 1, √5] i * ![5, 1, √5] a) := by
    intro i a
    unfold Spec.cosAngle
    rw [hn, hn]
  have hi : 1 / 3 < (√(5 : ℝ))⁻¹ := by
    rw [one_div]
    exact inv_strictAnti₀ h5 h5'
  intro i a b ha hb hab
  rw [key, key]
  obtain ⟨t, ht⟩ : ∃ t, t = (√(5 : ℝ))⁻¹ := ⟨_, rfl⟩
  rw [← ht] at hi
  fin_cases i <;> fin_cases a <;> fin_cases b <;> first
    | exact absurd rfl ha | exact absurd rfl hb | exact absurd rfl hab
    | (simp only [plane3, Fin.sum_univ_two, div_eq_mul_inv, mul_inv]
       rw [lt_abs]
       simp [← ht]
       norm_num
       first | (left; linarith) | (right; linarith)))

end HubToolbox.Relations
