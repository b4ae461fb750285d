import Verif.Rounding.RPrecModel
import Verif.Rounding.IntDimRow
import Verif.Rounding.HubStats
import Verif.Relations.SeparationRPrec

/-!
# C286: R-precision in double precision
-/

set_option autoImplicit false

namespace HubToolbox.Rounding

open HubToolbox Ieee

/-- Quotient of a sum of nonnegative numbers, computed in any order, and a natural number. -/
theorem quot_error {ι : Type} {l : List ι} {y v : ι → ℝ} {δ : ℝ} {s : XR ℝ} (hf : ∀ i ∈ l, double.round (y i) = .fin (y i))
    (hv : ∀ i ∈ l, 0 ≤ v i ∧ v i ≤ 2 ^ 30 ∧ (v i = 0 ∨ 1 / 2 ^ 25 ≤ v i)) (hy : ∀ i ∈ l, |y i - v i| ≤ δ * v i) (hδ0 : 0 ≤ δ) (hδ : δ ≤ 1 / 2)
    (h0 : 0 < l.length) (hn : l.length ≤ 2 ^ 25) {W : ℕ} (hW0 : 0 < W) (hW : W ≤ 2 ^ 50) (hs : (double.rounding ℝ).Sums (l.map fun i => .fin (y i)) s) :
    ∃ r, (double.rounding ℝ).div s ((double.rounding ℝ).ofNat W) = .fin r ∧
      |r - (l.map v).sum / W| ≤ (δ + 2 * l.length * u + 2 * u) * ((l.map v).sum / W) := by
  have hu := u_pos
  have h50 := u_le_50
  norm_num at h50
  have hn1 : (1 : ℝ) ≤ l.length := by exact_mod_cast h0
  have hn2 : (l.length : ℝ) ≤ 33554432 := by exact_mod_cast hn
  have hsums : ∀ l' : List ι, (∀ i ∈ l', i ∈ l) → |(l'.map y).sum - (l'.map v).sum| ≤ δ * (l'.map v).sum ∧ (l'.map fun i => |y i|).sum ≤ 3 / 2 * (l'.map v).sum ∧
      0 ≤ (l'.map v).sum ∧ (l'.map v).sum ≤ 2 ^ 30 * l'.length ∧ ((l'.map v).sum = 0 ∨ 1 / 2 ^ 25 ≤ (l'.map v).sum) := by
    intro l' hl'
    induction l' with
    | nil => simp
    | cons a l' ih =>
      obtain ⟨i1, i2, i3, i4, i5⟩ := ih fun i hi => hl' i (List.mem_cons_of_mem _ hi)
      have ha := hl' a List.mem_cons_self
      obtain ⟨v1, v2, v3⟩ := hv a ha
      have y1 := hy a ha
      have hδv : δ * v a ≤ 1 / 2 * v a := mul_le_mul_of_nonneg_right hδ v1
      simp only [List.map_cons, List.sum_cons, List.length_cons, Nat.cast_add, Nat.cast_one]
      refine ⟨?_, ?_, by linarith, by linarith, ?_⟩
      · rw [abs_le] at i1 y1 ⊢
        constructor <;> linarith
      · have : |y a| ≤ 3 / 2 * v a := by
          rw [abs_le] at y1 ⊢
          constructor <;> linarith
        linarith
      · rcases i5 with h | h
        · rcases v3 with h' | h'
          · left; linarith
          · right; linarith
        · right; linarith
  obtain ⟨i1, i2, i3, i4, i5⟩ := hsums l fun _ h => h
  set V := (l.map v).sum with hV
  have hg := hood_gamma h0 hn
  have hg0 : 0 ≤ (1 + u) ^ (l.length - 1) - 1 := by
    have : (1 : ℝ) ≤ (1 + u) ^ (l.length - 1) := one_le_pow₀ (by linarith)
    linarith
  have hnu : l.length * u ≤ 1 / 1000 := by
    have := mul_le_mul hn2 h50 hu.le (by norm_num)
    norm_num at this ⊢
    linarith
  have em : l.map (fun i => (.fin (y i) : XR ℝ)) = (l.map y).map .fin := by rw [List.map_map]; rfl
  rw [em] at hs
  have eabs : ((l.map y).map (|·|)).sum = (l.map fun i => |y i|).sum := by rw [List.map_map]; rfl
  obtain ⟨w, rfl, w2, w3⟩ := Ieee.sum_error (K := ℝ) double hs (by
      intro x hx
      obtain ⟨i, hi, rfl⟩ := List.mem_map.1 hx
      exact hf i hi) (by
      rw [eabs, List.length_map]
      have h1 : (1 + u) ^ (l.length - 1) ≤ 2 := by linarith
      have h2 : (l.map fun i => |y i|).sum ≤ 2 ^ 90 := by
        have h3 : (2 : ℝ) ^ 30 * l.length ≤ 2 ^ 30 * 33554432 := mul_le_mul_of_nonneg_left hn2 (by norm_num)
        refine (i2.trans (mul_le_mul_of_nonneg_left (i4.trans h3) (by norm_num))).trans (by norm_num)
      have h3 : 0 ≤ (l.map fun i => |y i|).sum := List.sum_nonneg (by
        intro x hx
        obtain ⟨i, -, rfl⟩ := List.mem_map.1 hx
        exact abs_nonneg _)
      refine (mul_le_mul h1 h2 h3 (by norm_num)).trans ?_
      have : (2 : ℝ) * 2 ^ 90 = 2 ^ (91 : ℤ) := by norm_num
      rw [this]
      exact zpow_le_zpow_right₀ one_le_two (by decide))
  rw [eabs, List.length_map] at w3
  have w4 : |w - (l.map y).sum| ≤ l.length * u * (3 / 2 * V) := by
    refine w3.trans ?_
    exact mul_le_mul hg i2 (List.sum_nonneg (by
        intro x hx
        obtain ⟨i, -, rfl⟩ := List.mem_map.1 hx
        exact abs_nonneg _)) (by positivity)
  have w5 : |w - V| ≤ (δ + 3 / 2 * l.length * u) * V := by
    rw [abs_le] at w4 i1 ⊢
    constructor <;> linarith
  have hδV : (δ + 3 / 2 * l.length * u) * V ≤ 3 / 5 * V := mul_le_mul_of_nonneg_right (by linarith) i3
  rw [ofNat_exact (hW.trans (by norm_num))]
  have hW1 : (1 : ℝ) ≤ W := by exact_mod_cast hW0
  have hW2 : (W : ℝ) ≤ 1125899906842624 := by exact_mod_cast hW
  have hne : (W : ℝ) ≠ 0 := by linarith
  have hpos : (0 : ℝ) < W := by linarith
  have ed : (double.rounding ℝ).div (.fin w) (.fin (W : ℝ)) = double.round (w / W) := by
    unfold div
    simp only [XR.div, hne, if_false]
    rfl
  rw [ed]
  have q1 : |w / W - V / W| ≤ (δ + 3 / 2 * l.length * u) * (V / W) := by
    rw [← sub_div, abs_div, abs_of_pos hpos, ← mul_div_assoc]
    exact div_le_div_of_nonneg_right w5 hpos.le
  have V0 : 0 ≤ V / W := div_nonneg i3 hpos.le
  have V1 : V / W ≤ 2 ^ 55 := by
    rw [div_le_iff₀ hpos]
    have h3 : (2 : ℝ) ^ 30 * l.length ≤ 2 ^ 55 * 1 := (mul_le_mul_of_nonneg_left hn2 (by norm_num)).trans (by norm_num)
    exact (i4.trans h3).trans (mul_le_mul_of_nonneg_left hW1 (by norm_num))
  have V2 : V / W = 0 ∨ 1 / 2 ^ 75 ≤ V / W := by
    rcases i5 with h | h
    · left; rw [h, zero_div]
    · right
      rw [le_div_iff₀ hpos]
      refine le_trans ?_ h
      have : (1 : ℝ) / 2 ^ 75 * W ≤ 1 / 2 ^ 75 * 1125899906842624 := mul_le_mul_of_nonneg_left hW2 (by norm_num)
      exact this.trans (by norm_num)
  set μ := V / W with hμ
  have q2 : (δ + 3 / 2 * l.length * u) * μ ≤ 3 / 5 * μ := mul_le_mul_of_nonneg_right (by linarith) V0
  have q3 := abs_le.1 q1
  have q4 : |w / W| ≤ 8 / 5 * μ := by
    rw [abs_le]
    constructor <;> linarith
  obtain ⟨r, r1, -, r3⟩ := rel_moderate (x := w / W) (by
      rcases V2 with h | h
      · left
        rw [h] at q3
        linarith [q3.1, q3.2]
      · right
        refine le_trans ?_ (le_abs_self _)
        have : 2 / 5 * μ ≤ w / W := by linarith
        refine le_trans ?_ this
        norm_num at h ⊢
        linarith) (q4.trans (by norm_num at V1 ⊢; linarith))
  refine ⟨r, r1, ?_⟩
  have r4 := abs_le.1 (r3.trans (mul_le_mul_of_nonneg_left q4 hu.le))
  have p1 : 0 ≤ u * μ := by positivity
  have p2 : 0 ≤ l.length * u * μ := by positivity
  rw [abs_le]
  constructor <;> linarith

/-- Sums of nonnegative floats do not exceed sums of integer bounds. -/
theorem sum_le_int {l : List ℝ} {s : XR ℝ} (h : (double.rounding ℝ).Sums (l.map .fin) s) (hl : ∀ x ∈ l, 0 ≤ x) (hb : (l.map fun x => ⌈x⌉).sum ≤ 2 ^ 53) :
    ∃ w, s = .fin w ∧ 0 ≤ w ∧ w ≤ (((l.map fun x => ⌈x⌉).sum : ℤ) : ℝ) := by
  rcases h with ⟨h, rfl⟩ | ⟨T, hT, rfl⟩
  · rw [List.map_eq_nil_iff] at h
    subst h
    exact ⟨0, rfl, le_rfl, by simp⟩
  obtain ⟨l', hperm, hlv⟩ : ∃ l' : List ℝ, l'.Perm l ∧ T.leaves = l'.map .fin := by
    have hf : ∀ a ∈ T.leaves, ∃ x : ℝ, a = .fin x := by
      intro a ha
      obtain ⟨x, _, rfl⟩ := List.mem_map.1 (hT.mem_iff.1 ha)
      exact ⟨x, rfl⟩
    have : ∃ l' : List ℝ, T.leaves = l'.map .fin := by
      generalize T.leaves = m at hf
      clear hT
      induction m with
      | nil => exact ⟨[], rfl⟩
      | cons a m ih =>
        obtain ⟨x, rfl⟩ := hf a (by simp)
        obtain ⟨l', rfl⟩ := ih (fun a ha => hf a (by simp [ha]))
        exact ⟨x :: l', rfl⟩
    obtain ⟨l', e⟩ := this
    refine ⟨l', ?_, e⟩
    rw [e] at hT
    exact (List.map_perm_map_iff fun _ _ h => XR.fin.inj h).1 hT
  rw [← (hperm.map _).sum_eq] at hb ⊢
  have hl' : ∀ x ∈ l', 0 ≤ x := fun x hx => hl x (hperm.mem_iff.1 hx)
  clear hT hperm hl
  have h0 : ∀ l : List ℝ, (∀ x ∈ l, 0 ≤ x) → 0 ≤ (l.map fun x => ⌈x⌉).sum := by
    intro l hl
    refine List.sum_nonneg ?_
    intro z hz
    obtain ⟨x, hx, rfl⟩ := List.mem_map.1 hz
    exact Int.ceil_nonneg (hl x hx)
  induction T generalizing l' with
  | leaf a =>
    obtain ⟨x, rfl⟩ : ∃ x, l' = [x] := by
      have := congrArg List.length hlv
      simp only [SumTree.leaves, List.length_singleton, List.length_map] at this
      exact List.length_eq_one_iff.1 this.symm
    simp only [SumTree.leaves, List.map_cons, List.map_nil, List.cons.injEq, and_true] at hlv
    refine ⟨x, by rw [SumTree.eval, hlv], hl' x (by simp), ?_⟩
    simpa using Int.le_ceil x
  | node t₁ t₂ h1 h2 =>
    simp only [SumTree.leaves] at hlv
    obtain ⟨l₁, l₂, rfl, e1, e2⟩ := List.map_eq_append_iff.1 hlv.symm
    simp only [List.map_append, List.sum_append] at hb ⊢
    have a1 := h0 l₁ fun x hx => hl' x (by simp [hx])
    have a2 := h0 l₂ fun x hx => hl' x (by simp [hx])
    obtain ⟨w1, i1, i2, i3⟩ := h1 l₁ (by linarith) e1.symm fun x hx => hl' x (by simp [hx])
    obtain ⟨w2, j1, j2, j3⟩ := h2 l₂ (by linarith) e2.symm fun x hx => hl' x (by simp [hx])
    rw [SumTree.eval, i1, j1]
    have hN := round_int (z := (l₁.map fun x => ⌈x⌉).sum + (l₂.map fun x => ⌈x⌉).sum) (by rw [abs_of_nonneg (by linarith)]; exact hb)
    have hup := (double.rounding ℝ).mono (w1 + w2) (((l₁.map fun x => ⌈x⌉).sum + (l₂.map fun x => ⌈x⌉).sum : ℤ) : ℝ) (by rw [Int.cast_add]; linarith)
    have hlo := (double.rounding ℝ).mono 0 (w1 + w2) (by linarith)
    rw [(double.rounding ℝ).zero] at hlo
    rw [show (double.rounding ℝ).rnd (((l₁.map fun x => ⌈x⌉).sum + (l₂.map fun x => ⌈x⌉).sum : ℤ) : ℝ) = _ from hN] at hup
    change ∃ w, (double.rounding ℝ).rnd (w1 + w2) = .fin w ∧ _
    cases hr : (double.rounding ℝ).rnd (w1 + w2) with
    | fin w => 
      rw [hr] at hup hlo
      exact ⟨w, rfl, hlo, hup⟩
    | pinf => rw [hr] at hup; exact absurd hup (by simp)
    | ninf => rw [hr] at hlo; exact absurd hlo (by simp)
    | nan => exact absurd hr ((double.rounding ℝ).ne_nan _)

/-- The quotient of such a sum is in the unit interval. -/
theorem quot_unit {ι : Type} {l : List ι} {y : ι → ℝ} {b : ι → ℕ} {s : XR ℝ} (h : (double.rounding ℝ).Sums (l.map fun i => .fin (y i)) s)
    (hy : ∀ i ∈ l, 0 ≤ y i ∧ y i ≤ b i) (h0 : 0 < (l.map b).sum) (hb : (l.map b).sum ≤ 2 ^ 53) :
    ∃ q, (double.rounding ℝ).div s ((double.rounding ℝ).ofNat (l.map b).sum) = .fin q ∧ 0 ≤ q ∧ q ≤ 1 := by
  have hle : ∀ l' : List ι, (∀ i ∈ l', i ∈ l) → ((l'.map y).map fun x => ⌈x⌉).sum ≤ ((l'.map b).sum : ℤ) := by
    intro l' hl'
    induction l' with
    | nil => simp
    | cons a l' ih =>
      have h1 := ih fun i hi => hl' i (List.mem_cons_of_mem _ hi)
      have h2 : ⌈y a⌉ ≤ (b a : ℤ) := Int.ceil_le.2 (by exact_mod_cast (hy a (hl' a List.mem_cons_self)).2)
      simp only [List.map_cons, List.sum_cons, Nat.cast_add] at h1 ⊢
      linarith
  have hL := hle l fun _ h => h
  have em : l.map (fun i => (.fin (y i) : XR ℝ)) = (l.map y).map .fin := by rw [List.map_map]; rfl
  rw [em] at h
  obtain ⟨w, rfl, w1, w2⟩ := sum_le_int h (by
    intro x hx
    obtain ⟨i, hi, rfl⟩ := List.mem_map.1 hx
    exact (hy i hi).1) (hL.trans (by exact_mod_cast hb))
  have w3 : w ≤ ((l.map b).sum : ℕ) := w2.trans (by
    clear w2 h hle em h0 hb
    generalize ((l.map y).map fun x => ⌈x⌉).sum = z at hL ⊢
    generalize (l.map b).sum = k at hL ⊢
    exact_mod_cast hL)
  have hp : (0 : ℝ) < ((l.map b).sum : ℕ) := by exact_mod_cast h0
  rw [ofNat_exact hb]
  have ed : (double.rounding ℝ).div (.fin w) (.fin (((l.map b).sum : ℕ) : ℝ)) = (double.rounding ℝ).rnd (w / ((l.map b).sum : ℕ)) :=
    congrArg (double.rounding ℝ).up (div_fin w hp.ne')
  rw [ed]
  have hup := (double.rounding ℝ).mono (w / ((l.map b).sum : ℕ)) 1 ((div_le_one hp).2 w3)
  have hlo := (double.rounding ℝ).mono 0 (w / ((l.map b).sum : ℕ)) (div_nonneg w1 hp.le)
  rw [(double.rounding ℝ).zero] at hlo
  rw [(double.rounding ℝ).one] at hup
  cases hr : (double.rounding ℝ).rnd (w / ((l.map b).sum : ℕ)) with
  | fin w =>
    rw [hr] at hup hlo
    exact ⟨w, rfl, hlo, hup⟩
  | pinf => rw [hr] at hup; exact absurd hup (by simp)
  | ninf => rw [hr] at hlo; exact absurd hlo (by simp)
  | nan => exact absurd hr ((double.rounding ℝ).ne_nan _)

/-- Precision of one object: a rounded quotient. -/
theorem item_near {c R : ℕ} (hc : c ≤ R) (hR : R ≤ 2 ^ 25) : ∃ f : ℝ, double.round ((c : ℝ) / R) = .fin f ∧ double.round f = .fin f ∧ 0 ≤ f ∧ f ≤ 1 ∧
    |f - (c : ℝ) / R| ≤ u * ((c : ℝ) / R) ∧ (c = R → f = (c : ℝ) / R) := by
  have hR' : (R : ℝ) ≤ 33554432 := by exact_mod_cast hR
  have hc' : (c : ℝ) ≤ R := by exact_mod_cast hc
  have h0 : 0 ≤ (c : ℝ) / R := by positivity
  have h1 : (c : ℝ) / R ≤ 1 := div_le_one_of_le₀ hc' (Nat.cast_nonneg R)
  obtain ⟨f, f1, f2, f3⟩ := rel_moderate (x := (c : ℝ) / R) (by
    rcases Nat.eq_zero_or_pos c with rfl | h
    · left; simp
    · right
      have hp : (0 : ℝ) < R := by exact_mod_cast h.trans_le hc
      have h2 : (1 : ℝ) ≤ c := by exact_mod_cast h
      rw [abs_of_nonneg h0, le_div_iff₀ hp]
      have : (1 : ℝ) / 2 ^ 100 * R ≤ 1 / 2 ^ 100 * 33554432 := mul_le_mul_of_nonneg_left hR' (by norm_num)
      refine (this.trans ?_).trans h2
      norm_num) (by
    rw [abs_of_nonneg h0]
    refine h1.trans ?_
    norm_num)
  rw [abs_of_nonneg h0] at f3
  refine ⟨f, f1, f2, ?_, ?_, f3, ?_⟩
  · have := (double.rounding ℝ).mono 0 _ h0
    rw [(double.rounding ℝ).zero, show (double.rounding ℝ).rnd ((c : ℝ) / R) = .fin f from f1] at this
    exact this
  · have := (double.rounding ℝ).mono _ 1 h1
    rw [(double.rounding ℝ).one, show (double.rounding ℝ).rnd ((c : ℝ) / R) = .fin f from f1] at this
    exact this
  · rintro rfl
    rcases Nat.eq_zero_or_pos c with rfl | h
    · simp only [Nat.cast_zero, div_zero] at f1 ⊢
      exact XR.fin.inj (f1.symm.trans (double.rounding ℝ).zero)
    · have hp : (c : ℝ) ≠ 0 := by exact_mod_cast h.ne'
      rw [div_self hp] at f1 ⊢
      exact XR.fin.inj (f1.symm.trans (double.rounding ℝ).one)

/-- Products with the weights. -/
theorem product_near {c R : ℕ} (hc : c ≤ R) (hR : R ≤ 2 ^ 25) {f : ℝ} (f0 : 0 ≤ f) (f1 : f ≤ 1) (hf : |f - (c : ℝ) / R| ≤ u * ((c : ℝ) / R))
    (he : c = R → f = (c : ℝ) / R) : ∃ g : ℝ, double.round (f * R) = .fin g ∧ double.round g = .fin g ∧ 0 ≤ g ∧ g ≤ R ∧ |g - c| ≤ 3 * u * c ∧ (c = R → g = c) := by
  have hu := u_pos
  have h50 := u_le_50
  norm_num at h50
  have hR' : (R : ℝ) ≤ 33554432 := by exact_mod_cast hR
  have hR0 : (0 : ℝ) ≤ R := Nat.cast_nonneg R
  have hc0 : (0 : ℝ) ≤ c := Nat.cast_nonneg c
  have hcR : (c : ℝ) / R * R = c := by
    rcases Nat.eq_zero_or_pos R with rfl | h
    · have : c = 0 := by omega
      simp [this]
    · exact div_mul_cancel₀ _ (by exact_mod_cast h.ne')
  have e1 : |f * R - c| ≤ u * c := by
    have : f * R - c = (f - (c : ℝ) / R) * R := by rw [sub_mul, hcR]
    rw [this, abs_mul, abs_of_nonneg hR0]
    refine (mul_le_mul_of_nonneg_right hf hR0).trans_eq ?_
    rw [mul_assoc, hcR]
  have e2 := abs_le.1 e1
  have huc : u * c ≤ 1 / 100 * c := mul_le_mul_of_nonneg_right (by linarith) hc0
  have h0 : 0 ≤ f * R := mul_nonneg f0 hR0
  have h1 : f * R ≤ R := mul_le_of_le_one_left hR0 f1
  obtain ⟨g, g1, g2, g3⟩ := rel_moderate (x := f * R) (by
    rcases Nat.eq_zero_or_pos c with rfl | h
    · left
      rw [Nat.cast_zero] at e2
      linarith [e2.1, e2.2]
    · right
      have h2 : (1 : ℝ) ≤ c := by exact_mod_cast h
      rw [abs_of_nonneg h0]
      have : (1 : ℝ) / 2 ^ 100 ≤ 1 / 2 := by norm_num
      linarith) (by
    rw [abs_of_nonneg h0]
    refine (h1.trans hR').trans ?_
    norm_num)
  rw [abs_of_nonneg h0] at g3
  have hRf : double.round (R : ℝ) = .fin (R : ℝ) := ofNat_exact (hR.trans (by norm_num))
  refine ⟨g, g1, g2, ?_, ?_, ?_, ?_⟩
  · have := (double.rounding ℝ).mono 0 _ h0
    rw [(double.rounding ℝ).zero, show (double.rounding ℝ).rnd (f * R) = .fin g from g1] at this
    exact this
  · have := (double.rounding ℝ).mono _ (R : ℝ) h1
    rw [show (double.rounding ℝ).rnd (R : ℝ) = _ from hRf, show (double.rounding ℝ).rnd (f * R) = .fin g from g1] at this
    exact this
  · have : u * (f * R) ≤ u * (101 / 100 * c) := mul_le_mul_of_nonneg_left (by linarith) hu.le
    have := abs_le.1 (g3.trans this)
    have : 0 ≤ u * c := by positivity
    rw [abs_le]
    constructor <;> linarith
  · intro hcR'
    rw [he hcR', hcR] at g1
    rw [← hcR'] at hRf
    exact XR.fin.inj (g1.symm.trans hRf)

end HubToolbox.Rounding
