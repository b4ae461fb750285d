import Verif.SNN.SimhubProps
import Mathlib.Analysis.SpecialFunctions.Log.Deriv
import Mathlib.Analysis.Complex.ExponentialBounds

/-!
# Supervised `simhub` with three or more classes (C36)

Two classes are the only case in which values stay in the unit interval (`C36_two_classes_partial`): for every larger number of
classes there are data with negative similarities. They consist of a hub, eleven points of each class whose nearest neighbour
is the hub, and two points which are the nearest neighbours of each other.
-/

set_option autoImplicit false

namespace HubToolbox.SNN

open HubToolbox LS

/-- The distances: point `11 * C` is the hub. -/
def hubDist (C : ℕ) (i j : Fin (11 * C + 3)) : ℕ :=
  if i = j then 0
  else if (i.val < 11 * C ∧ j.val = 11 * C) ∨ (i.val = 11 * C ∧ j.val < 11 * C) ∨ (11 * C < i.val ∧ 11 * C < j.val) then 1
  else 2

/-- The labels. -/
def hubLabel (C : ℕ) (i : Fin (11 * C + 3)) : ℤ := if i.val < 11 * C then (i.val / 11 : ℕ) else 0

theorem hubDist_symm (C : ℕ) (i j : Fin (11 * C + 3)) : hubDist C i j = hubDist C j i := by
  unfold hubDist
  by_cases h : i = j
  · simp [h]
  · rw [if_neg h, if_neg (Ne.symm h)]
    congr 1
    simp only [eq_iff_iff]
    tauto

theorem hubLabel_image {C : ℕ} (hC : 1 ≤ C) :
    Finset.univ.image (hubLabel C) = (Finset.range C).image (fun c : ℕ => (c : ℤ)) := by
  ext c
  simp only [Finset.mem_image, Finset.mem_univ, true_and, Finset.mem_range, hubLabel]
  constructor
  · rintro ⟨i, rfl⟩
    by_cases h : i.val < 11 * C
    · exact ⟨i.val / 11, by omega, by rw [if_pos h]⟩
    · exact ⟨0, by omega, by rw [if_neg h]; rfl⟩
  · rintro ⟨t, ht, rfl⟩
    refine ⟨⟨11 * t, by omega⟩, ?_⟩
    rw [if_pos (show 11 * t < 11 * C by omega)]
    congr 1
    show 11 * t / 11 = t
    omega

/-- Eleven points of each class. -/
theorem hubLabel_count {C t : ℕ} (ht : t < C) :
    (Finset.univ.filter (fun i : Fin (11 * C + 3) => i.val < 11 * C ∧ hubLabel C i = (t : ℤ))).card = 11 := by
  have : Finset.univ.filter (fun i : Fin (11 * C + 3) => i.val < 11 * C ∧ hubLabel C i = (t : ℤ)) =
      Finset.univ.image (fun a : Fin 11 => (⟨11 * t + a.val, by have := a.isLt; omega⟩ : Fin (11 * C + 3))) := by
    ext i
    rw [Finset.mem_filter, Finset.mem_image]
    simp only [Finset.mem_univ, true_and, hubLabel]
    constructor
    · rintro ⟨h, h'⟩
      rw [if_pos h] at h'
      have h'' : i.val / 11 = t := by exact_mod_cast h'
      exact ⟨⟨i.val - 11 * t, by omega⟩, Fin.ext (by show 11 * t + (i.val - 11 * t) = i.val; omega)⟩
    · rintro ⟨a, rfl⟩
      have ha := a.isLt
      have h : 11 * t + a.val < 11 * C := by omega
      refine ⟨h, ?_⟩
      rw [if_pos h]
      congr 1
      show (11 * t + a.val) / 11 = t
      omega
  rw [this, Finset.card_image_of_injective _ (fun a b h => by
    have := congrArg Fin.val h
    simp only at this
    exact Fin.ext (by omega)), Finset.card_univ, Fintype.card_fin]

theorem twelve_lt_log_three : (12 : ℝ) / 11 < Real.log 3 := by
  rw [Real.lt_log_iff_exp_lt (by norm_num)]
  have h1 : Real.exp (12 / 11) ^ 11 < (3 : ℝ) ^ 11 := by
    rw [← Real.exp_nat_mul]
    have : ((11 : ℕ) : ℝ) * (12 / 11) = ((12 : ℕ) : ℝ) * 1 := by norm_num
    rw [this, Real.exp_nat_mul]
    calc Real.exp 1 ^ 12 < (2.7182818286 : ℝ) ^ 12 :=
          pow_lt_pow_left₀ Real.exp_one_lt_d9 (Real.exp_pos 1).le (by norm_num)
      _ < 3 ^ 11 := by norm_num
  exact lt_of_pow_lt_pow_left₀ 11 (by norm_num) h1

/-- The smoothed entropy of a balanced hub exceeds the logarithm of the number of classes. -/
theorem balanced_gain_neg {C : ℕ} (hC : 3 ≤ C) :
    Real.log C - C * -((12 : ℝ) / (11 * C + 1) * Real.log (12 / (11 * C + 1))) < 0 := by
  have hC' : (3 : ℝ) ≤ C := by exact_mod_cast hC
  have hc : (0 : ℝ) < 11 * C + 1 := by linarith
  have hlog : (12 : ℝ) / 11 < Real.log C :=
    lt_of_lt_of_le twelve_lt_log_three (Real.log_le_log (by norm_num) hC')
  -- `t = 12 C / (11 C + 1)`
  have ht : (12 : ℝ) / (11 * C + 1) = (12 * C / (11 * C + 1)) / C := by field_simp
  have ht1 : (1 : ℝ) < 12 * C / (11 * C + 1) := by rw [lt_div_iff₀ hc]; linarith
  have ht2 : (12 : ℝ) * C / (11 * C + 1) < 12 / 11 := by
    rw [div_lt_div_iff₀ hc (by norm_num)]; linarith
  have hsplit : Real.log ((12 : ℝ) / (11 * C + 1)) = Real.log (12 * C / (11 * C + 1)) - Real.log C := by
    rw [ht, Real.log_div (by linarith) (by linarith)]
  have hle := Real.log_le_sub_one_of_pos (show (0 : ℝ) < 12 * C / (11 * C + 1) by linarith)
  rw [hsplit]
  have hmul : (C : ℝ) * -((12 : ℝ) / (11 * C + 1) * (Real.log (12 * C / (11 * C + 1)) - Real.log C)) =
      12 * C / (11 * C + 1) * (Real.log C - Real.log (12 * C / (11 * C + 1))) := by ring
  rw [hmul]
  generalize (12 : ℝ) * C / (11 * C + 1) = t at *
  nlinarith [mul_pos (show (0 : ℝ) < t - 1 by linarith) (show (0 : ℝ) < Real.log C - t by linarith),
    mul_nonneg (show (0 : ℝ) ≤ t by linarith) (show (0 : ℝ) ≤ t - 1 - Real.log t by linarith)]

/-- **C36** is violated for every number of classes from three on, by distances which are symmetric, positive for different
objects, and satisfy the triangle inequality (they are one or two). -/
theorem C36_violated_classes (w : World ℝ) {C : ℕ} (hC : 3 ≤ C) (vu : ℤ) :
    ∃ (n : ℕ) (d : Fin n → Fin n → ℕ) (y : Fin n → ℤ) (v : Fin n → Fin n → ℝ) (i j : Fin n),
      (∀ a b, d a b = d b a) ∧ (∀ a, d a a = 0) ∧ (∀ a b, a ≠ b → d a b = 1 ∨ d a b = 2) ∧
      (Finset.univ.image y).card = C ∧
      simhub w (.mat false n n (fun a b => .fin (d a b : ℝ))) (some ⟨n, y⟩) none none 1 false vu =
        .ok ⟨n, n, fun a b => .fin (v a b)⟩ ∧ v i j < 0 := by
  have himg := hubLabel_image (show 1 ≤ C by omega)
  have hcard : (Finset.univ.image (hubLabel C)).card = C := by
    rw [himg, Finset.card_image_of_injective _ Nat.cast_injective, Finset.card_range]
  obtain ⟨N, hN, h⟩ := C36_formula w (fun i j => .fin (hubDist C i j : ℝ)) (fun i j => (hubDist C i j : ℝ))
    (fun _ _ _ => rfl) (hubLabel C) (by rw [hcard]; omega) 1 le_rfl (by omega) false vu
  refine ⟨11 * C + 3, hubDist C, hubLabel C, _, ⟨0, by omega⟩, ⟨1, by omega⟩, hubDist_symm C, ?_, ?_, hcard, h, ?_⟩
  · intro a; simp [hubDist]
  · intro a b hab; unfold hubDist; rw [if_neg hab]; split <;> simp
  -- neighbourhoods
  have hmem : ∀ i : Fin (11 * C + 3), (⟨11 * C, by omega⟩ : Fin (11 * C + 3)) ∈ N i ↔ i.val < 11 * C := by
    intro i
    constructor
    · intro hi
      by_contra hlt
      rcases Nat.lt_or_ge (11 * C) i.val with hgt | hle
      · -- one of the two others
        have hN1 : N i = {⟨if i.val = 11 * C + 1 then 11 * C + 2 else 11 * C + 1, by split <;> omega⟩} := by
          have hne : i ≠ ⟨if i.val = 11 * C + 1 then 11 * C + 2 else 11 * C + 1, by split <;> omega⟩ := by
            intro he
            have := congrArg Fin.val he
            simp only at this
            split at this <;> omega
          refine hood_one _ _ _ (Finset.mem_erase.2 ⟨hne.symm, Finset.mem_univ _⟩) ?_ _ (hN i)
          · intro b hb hb'
            have hbi := (Finset.mem_erase.1 hb).1
            have hbv : b.val ≠ i.val := fun h => hbi (Fin.ext h)
            have hb2 : b.val ≠ if i.val = 11 * C + 1 then 11 * C + 2 else 11 * C + 1 := fun h => hb' (Fin.ext h)
            have h1 : hubDist C i ⟨if i.val = 11 * C + 1 then 11 * C + 2 else 11 * C + 1, by split <;> omega⟩ = 1 := by
              unfold hubDist
              rw [if_neg hne, if_pos]
              exact .inr (.inr ⟨hgt, by show 11 * C < if i.val = 11 * C + 1 then 11 * C + 2 else 11 * C + 1; split <;> omega⟩)
            have h2 : hubDist C i b = 2 := by
              have := b.isLt
              have := i.isLt
              unfold hubDist
              rw [if_neg (Ne.symm hbi), if_neg]
              rintro (⟨_, _⟩ | ⟨_, _⟩ | ⟨_, _⟩)
              · omega
              · omega
              · split at hb2 <;> omega
            rw [h1, h2]; norm_num
        rw [hN1, Finset.mem_singleton] at hi
        have := congrArg Fin.val hi
        simp only at this
        split at this <;> omega
      · have : i = ⟨11 * C, by omega⟩ := Fin.ext (by show i.val = 11 * C; omega)
        have h' := (hN i).sub hi
        rw [this] at h'
        simp at h'
    · intro hlt
      have hN1 : N i = {⟨11 * C, by omega⟩} := by
        refine hood_one _ _ _ (Finset.mem_erase.2 ⟨fun he => by have := congrArg Fin.val he; simp only at this; omega,
          Finset.mem_univ _⟩) ?_ _ (hN i)
        intro b hb hb'
        have hbi := (Finset.mem_erase.1 hb).1
        have hb2 : b.val ≠ 11 * C := fun h => hb' (Fin.ext h)
        have h1 : hubDist C i ⟨11 * C, by omega⟩ = 1 := by
          unfold hubDist
          rw [if_neg (fun he => by have := congrArg Fin.val he; simp only at this; omega), if_pos (.inl ⟨hlt, rfl⟩)]
        have h2 : hubDist C i b = 2 := by
          unfold hubDist
          rw [if_neg (Ne.symm hbi), if_neg]
          rintro (⟨_, _⟩ | ⟨_, _⟩ | ⟨_, _⟩) <;> omega
        rw [h1, h2]; norm_num
      rw [hN1]; exact Finset.mem_singleton_self _
  have hone : ∀ i : Fin (11 * C + 3), i.val < 11 * C → N i = {⟨11 * C, by omega⟩} := by
    intro i hi
    obtain ⟨b, hb⟩ := Finset.card_eq_one.1 (hN i).card
    have := (hmem i).2 hi
    rw [hb, Finset.mem_singleton] at this
    rw [hb, this]
  have hocc : Spec.occurrence Finset.univ N ⟨11 * C, by omega⟩ = 11 * C + 1 := by
    unfold Spec.occurrence
    simp only [hmem]
    congr 1
    have : Finset.univ.filter (fun i : Fin (11 * C + 3) => i.val < 11 * C) =
        Finset.univ.image (Fin.castLE (show 11 * C ≤ 11 * C + 3 by omega)) := by
      ext i
      simp only [Finset.mem_filter, Finset.mem_univ, true_and, Finset.mem_image]
      exact ⟨fun hi => ⟨⟨i.val, hi⟩, rfl⟩, by rintro ⟨a, rfl⟩; exact a.isLt⟩
    rw [this, Finset.card_image_of_injective _ (Fin.castLE_injective _), Finset.card_univ, Fintype.card_fin]
  have hcl : ∀ c ∈ Finset.univ.image (hubLabel C),
      Spec.classOccurrence Finset.univ N (hubLabel C) c ⟨11 * C, by omega⟩ = 12 := by
    intro c hc
    rw [himg] at hc
    obtain ⟨t, ht, rfl⟩ := Finset.mem_image.1 hc
    unfold Spec.classOccurrence
    simp only [hmem]
    rw [hubLabel_count (Finset.mem_range.1 ht)]
  have hne : ¬ (⟨0, by omega⟩ : Fin (11 * C + 3)) = ⟨1, by omega⟩ := fun he => by
    have := congrArg Fin.val he
    simp at this
  simp only [Spec.orDistance, Spec.simhub]
  rw [if_neg (by decide), if_neg hne, hone _ (show 0 < 11 * C by omega), hone _ (show 1 < 11 * C by omega),
    Finset.inter_self, Finset.sum_singleton, hocc]
  unfold Spec.informationGain
  rw [Finset.sum_congr rfl (g := fun _ => -((12 : ℝ) / (11 * C + 1) * Real.log (12 / (11 * C + 1)))) (fun c hc => by
    simp only [hcl c hc]; push_cast; rfl)]
  rw [Finset.sum_const, hcard, nsmul_eq_mul]
  have hC' : (3 : ℝ) ≤ C := by exact_mod_cast hC
  have hl1 : 0 < Real.log (((11 * C + 3 : ℕ) : ℝ) / ((11 * C + 1 : ℕ) : ℝ)) := by
    refine Real.log_pos ?_
    rw [one_lt_div (by positivity)]
    push_cast; linarith
  have hl2 : 0 < Real.log ((11 * C + 3 : ℕ) : ℝ) := Real.log_pos (by push_cast; linarith)
  have hl3 : 0 < Real.log (C : ℝ) := Real.log_pos (by linarith)
  exact div_neg_of_neg_of_pos (mul_neg_of_pos_of_neg hl1 (balanced_gain_neg hC)) (by push_cast at hl2 ⊢; positivity)

end HubToolbox.SNN
