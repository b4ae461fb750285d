import Verif.Relations.RobustCount
import Verif.GK.Props

/-!
# Measurement errors and the Goodman-Kruskal index

C308: if every distance is known up to a factor `q`, the index of the measured distances differs from that of the true distances by at most twice the number of
doubtful quadruples (whose two distances are within a factor `q²` of each other), divided by the number of quadruples which the index is based on.
-/

set_option autoImplicit false

namespace HubToolbox.Spec

/-- Quadruples whose two distances cannot be told apart. -/
noncomputable def doubtfulQuads (q : ℝ) {n : ℕ} (x : Fin n → Fin n → ℝ) (cls : Fin n → ℤ) : Finset ((Fin n × Fin n) × (Fin n × Fin n)) :=
  quads cls fun p p' => x p.1 p.2 ≤ q ^ 2 * x p'.1 p'.2 ∧ x p'.1 p'.2 ≤ q ^ 2 * x p.1 p.2

/-- Quadruples whose two distances differ. -/
noncomputable def untiedQuads {n : ℕ} (x : Fin n → Fin n → ℝ) (cls : Fin n → ℤ) : Finset ((Fin n × Fin n) × (Fin n × Fin n)) :=
  quads cls fun p p' => x p.1 p.2 ≠ x p'.1 p'.2

end HubToolbox.Spec

namespace HubToolbox.Relations

open HubToolbox

/-- Comparisons which differ concern distances that cannot be told apart. -/
theorem compare_doubtful {q a b a' b' : ℝ} (hq : 1 ≤ q) (ha : 0 < a) (hb : 0 < b) (h1 : a ≤ q * a') (h2 : a' ≤ q * a) (h3 : b ≤ q * b') (h4 : b' ≤ q * b)
    (hd : ¬ (a < b ↔ a' < b')) : a ≤ q ^ 2 * b ∧ b ≤ q ^ 2 * a := by
  have hq0 : 0 ≤ q := by linarith
  have hone : ∀ s : ℝ, 0 < s → s ≤ q ^ 2 * s := fun s hs => le_mul_of_one_le_left hs.le (one_le_pow₀ hq)
  by_cases hab : a < b
  · have h : b' ≤ a' := not_lt.1 fun h => hd (iff_of_true hab h)
    refine ⟨hab.le.trans (hone b hb), ?_⟩
    calc b ≤ q * b' := h3
      _ ≤ q * (q * a) := mul_le_mul_of_nonneg_left (h.trans h2) hq0
      _ = q ^ 2 * a := by ring
  · have h : a' < b' := by
      by_contra h
      exact hd (iff_of_false hab h)
    refine ⟨?_, (not_lt.1 hab).trans (hone a ha)⟩
    calc a ≤ q * a' := h1
      _ ≤ q * (q * b) := mul_le_mul_of_nonneg_left (h.le.trans h4) hq0
      _ = q ^ 2 * b := by ring

/-- The index as a function of the two numbers. -/
theorem gamma_close {c d c' d' B : ℕ} (hT : 0 < c + d) (hc : |(c' : ℝ) - c| ≤ B) (hd : |(d' : ℝ) - d| ≤ B) :
    |(Spec.gkGamma c' d' : ℝ) - Spec.gkGamma c d| ≤ 2 * B / ((c + d : ℕ) : ℝ) := by
  have hT0 : (0 : ℝ) < (c + d : ℕ) := by exact_mod_cast hT
  have hT1 : (0 : ℝ) < (c : ℝ) + d := by exact_mod_cast hT
  have c0 : (0 : ℝ) ≤ c := Nat.cast_nonneg c
  have d0 : (0 : ℝ) ≤ d := Nat.cast_nonneg d
  have c0' : (0 : ℝ) ≤ c' := Nat.cast_nonneg c'
  have d0' : (0 : ℝ) ≤ d' := Nat.cast_nonneg d'
  obtain ⟨c1, c2⟩ := abs_le.1 hc
  obtain ⟨d1, d2⟩ := abs_le.1 hd
  unfold Spec.gkGamma
  rw [if_neg hT.ne', Nat.cast_add]
  by_cases hT' : c' + d' = 0
  · obtain ⟨rfl, rfl⟩ : c' = 0 ∧ d' = 0 := by omega
    rw [if_pos rfl, zero_sub, abs_neg, abs_div, abs_of_pos hT1]
    refine div_le_div_of_nonneg_right ?_ hT1.le
    rw [Nat.cast_zero] at c1 d1
    rw [abs_le]
    constructor <;> linarith
  · rw [if_neg hT']
    have hT2 : (0 : ℝ) < (c' : ℝ) + d' := by
      have : 0 < c' + d' := by omega
      exact_mod_cast this
    rw [show ((c' : ℝ) - d') / (c' + d') - (c - d) / (c + d) = 2 * (c' * (d - d') + d' * (c' - c)) / ((c' + d') * (c + d)) by
      field_simp; ring, abs_div, abs_of_pos (mul_pos hT2 hT1), div_le_div_iff₀ (mul_pos hT2 hT1) hT1]
    have key : |2 * ((c' : ℝ) * (d - d') + d' * (c' - c))| ≤ 2 * B * (c' + d') := by
      rw [abs_mul, abs_two, mul_assoc]
      refine mul_le_mul_of_nonneg_left ?_ (by norm_num)
      calc |(c' : ℝ) * (d - d') + d' * (c' - c)| ≤ |(c' : ℝ) * (d - d')| + |(d' : ℝ) * (c' - c)| := abs_add_le _ _
        _ = c' * |(d' : ℝ) - d| + d' * |(c' : ℝ) - c| := by rw [abs_mul, abs_mul, abs_of_nonneg c0', abs_of_nonneg d0', abs_sub_comm (d : ℝ)]
        _ ≤ c' * B + d' * B := add_le_add (mul_le_mul_of_nonneg_left hd c0') (mul_le_mul_of_nonneg_left hc d0')
        _ = B * (c' + d') := by ring
    calc |2 * ((c' : ℝ) * (d - d') + d' * (c' - c))| * (c + d) ≤ 2 * B * (c' + d') * (c + d) := mul_le_mul_of_nonneg_right key hT1.le
      _ = 2 * B * ((c' + d') * (c + d)) := by ring

section
variable {n : ℕ} {x y : Fin n → Fin n → ℝ} {q : ℝ} (cls : Fin n → ℤ)

theorem quads_close (hq : 1 ≤ q) (h : Spec.UpTo q x y) (hx0 : ∀ i j, i ≠ j → 0 < x i j) :
    |((Spec.quads cls fun p p' => XR.flt (LS.toXR y p.1 p.2) (LS.toXR y p'.1 p'.2)).card : ℝ) -
      (Spec.quads cls fun p p' => XR.flt (LS.toXR x p.1 p.2) (LS.toXR x p'.1 p'.2)).card| ≤ (Spec.doubtfulQuads q x cls).card ∧
    |((Spec.quads cls fun p p' => XR.flt (LS.toXR y p'.1 p'.2) (LS.toXR y p.1 p.2)).card : ℝ) -
      (Spec.quads cls fun p p' => XR.flt (LS.toXR x p'.1 p'.2) (LS.toXR x p.1 p.2)).card| ≤ (Spec.doubtfulQuads q x cls).card := by
  have key : ∀ p p' : Fin n × Fin n, p.1 < p.2 → p'.1 < p'.2 → ¬ (x p.1 p.2 < x p'.1 p'.2 ↔ y p.1 p.2 < y p'.1 p'.2) →
      x p.1 p.2 ≤ q ^ 2 * x p'.1 p'.2 ∧ x p'.1 p'.2 ≤ q ^ 2 * x p.1 p.2 := fun p p' hp hp' hd =>
    compare_doubtful hq (hx0 _ _ hp.ne) (hx0 _ _ hp'.ne) (h _ _ hp.ne).1 (h _ _ hp.ne).2 (h _ _ hp'.ne).1 (h _ _ hp'.ne).2 hd
  constructor
  · refine card_diff (fun t ht => ?_) (fun t ht => ?_)
    · obtain ⟨h1, h2⟩ := Finset.mem_sdiff.1 ht
      obtain ⟨-, a1, a2, a3, a4, a5⟩ := Finset.mem_filter.1 h1
      refine Finset.mem_filter.2 ⟨Finset.mem_univ t, a1, a2, a3, a4, key _ _ a1 a3 fun e => h2 ?_⟩
      exact Finset.mem_filter.2 ⟨Finset.mem_univ t, a1, a2, a3, a4, e.1 a5⟩
    · obtain ⟨h1, h2⟩ := Finset.mem_sdiff.1 ht
      obtain ⟨-, a1, a2, a3, a4, a5⟩ := Finset.mem_filter.1 h1
      refine Finset.mem_filter.2 ⟨Finset.mem_univ t, a1, a2, a3, a4, key _ _ a1 a3 fun e => h2 ?_⟩
      exact Finset.mem_filter.2 ⟨Finset.mem_univ t, a1, a2, a3, a4, e.2 a5⟩
  · refine card_diff (fun t ht => ?_) (fun t ht => ?_)
    · obtain ⟨h1, h2⟩ := Finset.mem_sdiff.1 ht
      obtain ⟨-, a1, a2, a3, a4, a5⟩ := Finset.mem_filter.1 h1
      refine Finset.mem_filter.2 ⟨Finset.mem_univ t, a1, a2, a3, a4, (key _ _ a3 a1 fun e => h2 ?_).symm⟩
      exact Finset.mem_filter.2 ⟨Finset.mem_univ t, a1, a2, a3, a4, e.1 a5⟩
    · obtain ⟨h1, h2⟩ := Finset.mem_sdiff.1 ht
      obtain ⟨-, a1, a2, a3, a4, a5⟩ := Finset.mem_filter.1 h1
      refine Finset.mem_filter.2 ⟨Finset.mem_univ t, a1, a2, a3, a4, (key _ _ a3 a1 fun e => h2 ?_).symm⟩
      exact Finset.mem_filter.2 ⟨Finset.mem_univ t, a1, a2, a3, a4, e.2 a5⟩

theorem untied_card (x : Fin n → Fin n → ℝ) : (Spec.untiedQuads x cls).card =
    (Spec.quads cls fun p p' => XR.flt (LS.toXR x p.1 p.2) (LS.toXR x p'.1 p'.2)).card +
      (Spec.quads cls fun p p' => XR.flt (LS.toXR x p'.1 p'.2) (LS.toXR x p.1 p.2)).card := by
  rw [← Finset.card_union_of_disjoint]
  · congr 1
    ext t
    unfold Spec.untiedQuads Spec.quads
    rw [Finset.mem_union, Finset.mem_filter, Finset.mem_filter, Finset.mem_filter]
    have e : x t.1.1 t.1.2 ≠ x t.2.1 t.2.2 ↔ XR.flt (LS.toXR x t.1.1 t.1.2) (LS.toXR x t.2.1 t.2.2) ∨ XR.flt (LS.toXR x t.2.1 t.2.2) (LS.toXR x t.1.1 t.1.2) :=
      lt_or_lt_iff_ne.symm
    beta_reduce
    rw [e]
    tauto
  · refine Finset.disjoint_left.2 fun t h1 h2 => ?_
    obtain ⟨-, -, -, -, -, a⟩ := Finset.mem_filter.1 h1
    obtain ⟨-, -, -, -, -, b⟩ := Finset.mem_filter.1 h2
    exact lt_asymm (show x t.1.1 t.1.2 < x t.2.1 t.2.2 from a) b

end

/-- **C308.** -/
theorem C308 {n : ℕ} (x y : Fin n → Fin n → ℝ) (q : ℝ) (hq : 1 ≤ q) (hxy : Spec.UpTo q x y) (hx : ∀ i j, x i j = x j i) (hy : ∀ i j, y i j = y j i)
    (hx0 : ∀ i j, i ≠ j → 0 < x i j) (cls : Fin n → ℤ) (hT : (Spec.untiedQuads x cls).Nonempty) :
    ∃ g g' : ℝ, GK.index (.mat false n n (LS.toXR x)) (.vec n cls) "distance" = .ok g ∧
      GK.index (.mat false n n (LS.toXR y)) (.vec n cls) "distance" = .ok g' ∧
      |g' - g| ≤ 2 * (Spec.doubtfulQuads q x cls).card / (Spec.untiedQuads x cls).card := by
  refine ⟨_, _, (GK.C14_index_is_definition (LS.toXR x) cls "distance" (Or.inl rfl) (fun i j => congrArg XR.fin (hx i j)) (fun _ _ => by simp [LS.toXR])).1,
    (GK.C14_index_is_definition (LS.toXR y) cls "distance" (Or.inl rfl) (fun i j => congrArg XR.fin (hy i j)) (fun _ _ => by simp [LS.toXR])).1, ?_⟩
  obtain ⟨h1, h2⟩ := quads_close cls hq hxy hx0
  unfold Spec.gkIndex
  simp only [if_true]
  have hpos := Finset.card_pos.2 hT
  rw [untied_card] at hpos ⊢
  exact gamma_close hpos h1 h2

/-! ### Instances -/

theorem line3_untied : ((0, 1), (0, 2)) ∈ Spec.untiedQuads LS.line3 ![1, 1, 2] := by
  refine Finset.mem_filter.2 ⟨Finset.mem_univ _, by decide, rfl, by decide, by decide, ?_⟩
  show (1 : ℝ) ≠ 3
  norm_num

/-- Errors of one percent do not change the index of `line3`. -/
example : ∃ g : ℝ, GK.index (.mat false 3 3 (LS.toXR LS.line3)) (.vec 3 ![1, 1, 2]) "distance" = .ok g ∧
    GK.index (.mat false 3 3 (LS.toXR measured3)) (.vec 3 ![1, 1, 2]) "distance" = .ok g := by
  obtain ⟨g, g', h1, h2, h3⟩ := C308 LS.line3 measured3 (101 / 100) (by norm_num) measured3_upTo LS.line3_symm measured3_symm line3_off_pos ![1, 1, 2]
    ⟨_, line3_untied⟩
  have e : Spec.doubtfulQuads (101 / 100) LS.line3 ![1, 1, 2] = ∅ := by
    refine Finset.filter_eq_empty_iff.2 fun t _ ⟨a1, a2, a3, a4, a5, a6⟩ => ?_
    obtain ⟨⟨a, b⟩, c, d⟩ := t
    have hab : ∀ a b : Fin 3, a < b → (![1, 1, 2] : Fin 3 → ℤ) a = ![1, 1, 2] b → a = 0 ∧ b = 1 := by decide
    have hab := hab a b a1 a2
    obtain ⟨rfl, rfl⟩ := hab
    have hd : (2 : ℝ) ≤ LS.line3 c d := by
      have hcd : ∀ c d : Fin 3, c < d → (![1, 1, 2] : Fin 3 → ℤ) c ≠ ![1, 1, 2] d → (c = 0 ∨ c = 1) ∧ d = 2 := by decide
      obtain ⟨rfl | rfl, rfl⟩ := hcd c d a3 a4
      · show (2 : ℝ) ≤ 3
        norm_num
      · show (2 : ℝ) ≤ 2
        norm_num
    have a6 : LS.line3 c d ≤ (101 / 100) ^ 2 * 1 := a6
    norm_num at a6
    linarith
  rw [e, Finset.card_empty, Nat.cast_zero, mul_zero, zero_div] at h3
  exact ⟨g, h1, (sub_eq_zero.1 (abs_nonpos_iff.1 h3)) ▸ h2⟩

end HubToolbox.Relations
