import Verif.Rounding.RPrec

/-!
# C286: averages of R-precision in double precision
-/

set_option autoImplicit false

namespace HubToolbox.Rounding

open HubToolbox Ieee Knn

/-- Sums of naturals are exact. -/
theorem sum_nat {ι : Type} {l : List ι} {b : ι → ℕ} {s : XR ℝ} (h : (double.rounding ℝ).Sums (l.map fun i => .fin (b i : ℝ)) s) (hb : (l.map b).sum ≤ 2 ^ 53) :
    s = .fin (((l.map b).sum : ℕ) : ℝ) := by
  have e : l.map (fun i => (.fin (b i : ℝ) : XR ℝ)) = (l.map fun i => (b i : ℤ)).map fun z : ℤ => .fin (z : ℝ) := by
    rw [List.map_map]
    exact List.map_congr_left fun i _ => by simp
  have e2 : (l.map fun i => (b i : ℤ)).sum = (((l.map b).sum : ℕ) : ℤ) := by
    rw [Nat.cast_list_sum, List.map_map]
    rfl
  rw [e] at h
  have := sums_int h (by
    rw [List.map_map, List.map_congr_left (g := fun i => (b i : ℤ)) (fun i _ => by simp), e2]
    exact_mod_cast hb)
  rw [this, e2, Int.cast_natCast]

section
variable {n : ℕ} (c R : Fin n → ℕ) (hc : ∀ i, c i ≤ R i) (hR : ∀ i, R i ≤ n) (hn : n ≤ 2 ^ 25) (sum : List (XR ℝ) → XR ℝ)
  (hsum : ∀ l, (∀ a ∈ l, (double.rounding ℝ).Float a) → (double.rounding ℝ).Sums l (sum l))
include hc hR hn hsum

/-- The mean of the precisions. -/
theorem macro_near (h0 : 0 < n) : ∃ m : ℝ, (double.rounding ℝ).div (sum ((List.finRange n).map fun i => double.round ((c i : ℝ) / R i))) ((double.rounding ℝ).ofNat n) = .fin m ∧
    0 ≤ m ∧ m ≤ 1 ∧ |m - ((List.finRange n).map fun i => (c i : ℝ) / R i).sum / n| ≤ (2 * n + 3) * u * (((List.finRange n).map fun i => (c i : ℝ) / R i).sum / n) ∧
    ((∀ i, c i = R i ∧ 0 < R i) → m = 1) := by
  have hu := u_pos
  have h50 := u_le_50
  norm_num at h50
  have hlen : (List.finRange n).length = n := List.length_finRange
  have hR25 : ∀ i, R i ≤ 2 ^ 25 := fun i => (hR i).trans hn
  choose f f1 f2 f3 f4 f5 f6 using fun i => item_near (hc i) (hR25 i)
  have el : ((List.finRange n).map fun i => double.round ((c i : ℝ) / R i)) = (List.finRange n).map fun i => .fin (f i) := List.map_congr_left fun i _ => f1 i
  rw [el]
  have hs := hsum ((List.finRange n).map fun i => .fin (f i)) (by
    intro a ha
    obtain ⟨i, -, rfl⟩ := List.mem_map.1 ha
    exact f2 i)
  have hcard : ((List.finRange n).map fun _ => (1 : ℕ)).sum = n := by simp
  obtain ⟨m, m1, m2, m3⟩ := quot_unit (b := fun _ => 1) hs (fun i _ => ⟨f3 i, by rw [Nat.cast_one]; exact f4 i⟩) (by rw [hcard]; exact h0) (by rw [hcard]; exact hn.trans (by norm_num))
  rw [hcard] at m1
  obtain ⟨r, r1, r2⟩ := quot_error (δ := u) (v := fun i => (c i : ℝ) / R i) (fun i _ => f2 i) (fun i _ => by
    have hp : 0 ≤ (c i : ℝ) / R i := by positivity
    have hc' : (c i : ℝ) ≤ R i := by exact_mod_cast hc i
    have hR' : (R i : ℝ) ≤ 2 ^ 25 := by exact_mod_cast hR25 i
    refine ⟨hp, (div_le_one_of_le₀ hc' (Nat.cast_nonneg _)).trans (by norm_num), ?_⟩
    rcases Nat.eq_zero_or_pos (c i) with h | h
    · left; rw [h, Nat.cast_zero, zero_div]
    · right
      have h2 : (1 : ℝ) ≤ c i := by exact_mod_cast h
      have hp : (0 : ℝ) < R i := by exact_mod_cast h.trans_le (hc i)
      rw [div_le_div_iff₀ (by norm_num) hp]
      linarith) (fun i _ => f5 i) hu.le (by linarith) (by rw [hlen]; exact h0) (by rw [hlen]; exact hn) h0 (hn.trans (by norm_num)) hs
  rw [hlen] at r2
  have hrm : r = m := XR.fin.inj (r1.symm.trans m1)
  refine ⟨m, m1, m2, m3, ?_, ?_⟩
  · rw [← hrm]
    refine r2.trans_eq ?_
    ring
  · intro hall
    have hf : ∀ i, f i = ((1 : ℕ) : ℝ) := fun i => by
      rw [f6 i (hall i).1, (hall i).1, Nat.cast_one]
      exact div_self (by exact_mod_cast (hall i).2.ne')
    have el' : ((List.finRange n).map fun i => (.fin (f i) : XR ℝ)) = (List.finRange n).map fun _ => .fin ((1 : ℕ) : ℝ) :=
      List.map_congr_left fun i _ => by rw [hf i]
    rw [el'] at hs m1
    rw [sum_nat (b := fun _ => 1) hs (by rw [hcard]; exact hn.trans (by norm_num)), hcard, ofNat_exact (hn.trans (by norm_num))] at m1
    have hne : (n : ℝ) ≠ 0 := by exact_mod_cast h0.ne'
    have : (double.rounding ℝ).div (.fin (n : ℝ)) (.fin (n : ℝ)) = (double.rounding ℝ).rnd 1 := by
      rw [← div_self hne]
      exact congrArg (double.rounding ℝ).up (div_fin _ hne)
    rw [this, (double.rounding ℝ).one] at m1
    exact (XR.fin.inj m1).symm

/-- The weighted mean. -/
theorem weighted_near (h0 : 0 < ((List.finRange n).map R).sum) : ∃ q : ℝ,
    (double.rounding ℝ).div (sum ((List.finRange n).map fun i => (double.rounding ℝ).mul (double.round ((c i : ℝ) / R i)) ((double.rounding ℝ).ofNat (R i))))
      (sum ((List.finRange n).map fun i => (double.rounding ℝ).ofNat (R i))) = .fin q ∧
    sum ((List.finRange n).map fun i => (double.rounding ℝ).ofNat (R i)) ≠ .fin 0 ∧
    0 ≤ q ∧ q ≤ 1 ∧ |q - ((List.finRange n).map fun i => (c i : ℝ)).sum / (((List.finRange n).map R).sum : ℕ)| ≤
      (2 * n + 5) * u * (((List.finRange n).map fun i => (c i : ℝ)).sum / (((List.finRange n).map R).sum : ℕ)) ∧ ((∀ i, c i = R i) → q = 1) := by
  have hu := u_pos
  have h50 := u_le_50
  norm_num at h50
  have hlen : (List.finRange n).length = n := List.length_finRange
  have hn0 : 0 < n := by
    rcases Nat.eq_zero_or_pos n with rfl | h
    · simp at h0
    · exact h
  have hR25 : ∀ i, R i ≤ 2 ^ 25 := fun i => (hR i).trans hn
  have hW : ((List.finRange n).map R).sum ≤ 2 ^ 50 := by
    have := List.sum_le_card_nsmul ((List.finRange n).map R) n (by
      intro x hx
      obtain ⟨i, -, rfl⟩ := List.mem_map.1 hx
      exact hR i)
    rw [List.length_map, hlen, smul_eq_mul] at this
    exact this.trans ((Nat.mul_le_mul hn hn).trans (by norm_num))
  choose f f1 f2 f3 f4 f5 f6 using fun i => item_near (hc i) (hR25 i)
  choose g g1 g2 g3 g4 g5 g6 using fun i => product_near (hc i) (hR25 i) (f3 i) (f4 i) (f5 i) (f6 i)
  have eR : ∀ i, (double.rounding ℝ).ofNat (R i) = .fin (R i : ℝ) := fun i => ofNat_exact ((hR25 i).trans (by norm_num))
  have el : ((List.finRange n).map fun i => (double.rounding ℝ).mul (double.round ((c i : ℝ) / R i)) ((double.rounding ℝ).ofNat (R i))) =
      (List.finRange n).map fun i => .fin (g i) := List.map_congr_left fun i _ => by
    rw [f1 i, eR i, ← g1 i]
    rfl
  have eRl : ((List.finRange n).map fun i => (double.rounding ℝ).ofNat (R i)) = (List.finRange n).map fun i => .fin (R i : ℝ) := List.map_congr_left fun i _ => eR i
  have hsR := hsum ((List.finRange n).map fun i => .fin (R i : ℝ)) (by
    intro a ha
    obtain ⟨i, -, rfl⟩ := List.mem_map.1 ha
    exact eR i)
  have hs := hsum ((List.finRange n).map fun i => .fin (g i)) (by
    intro a ha
    obtain ⟨i, -, rfl⟩ := List.mem_map.1 ha
    exact g2 i)
  have hden := sum_nat hsR (hW.trans (by norm_num))
  rw [el, eRl, hden]
  obtain ⟨q, q1, q2, q3⟩ := quot_unit (b := R) hs (fun i _ => ⟨g3 i, g4 i⟩) h0 (hW.trans (by norm_num))
  obtain ⟨r, r1, r2⟩ := quot_error (δ := 3 * u) (v := fun i => (c i : ℝ)) (fun i _ => g2 i) (fun i _ => by
    have hc' : (c i : ℝ) ≤ 33554432 := by exact_mod_cast (hc i).trans (hR25 i)
    refine ⟨Nat.cast_nonneg _, hc'.trans (by norm_num), ?_⟩
    rcases Nat.eq_zero_or_pos (c i) with h | h
    · left; rw [h, Nat.cast_zero]
    · right
      have h2 : (1 : ℝ) ≤ c i := by exact_mod_cast h
      refine le_trans ?_ h2
      norm_num) (fun i _ => g5 i) (by linarith) (by linarith) (by rw [hlen]; exact hn0) (by rw [hlen]; exact hn) h0 hW hs
  rw [hlen] at r2
  have hrq : r = q := XR.fin.inj (r1.symm.trans q1)
  have hWf := ofNat_exact (hW.trans (by norm_num : 2 ^ 50 ≤ 2 ^ 53))
  have hne : ((((List.finRange n).map R).sum : ℕ) : ℝ) ≠ 0 := by exact_mod_cast h0.ne'
  refine ⟨q, by rw [← hWf]; exact q1, fun e => hne (XR.fin.inj e), q2, q3, ?_, ?_⟩
  · rw [← hrq]
    refine r2.trans_eq ?_
    ring
  · intro hall
    have el' : ((List.finRange n).map fun i => (.fin (g i) : XR ℝ)) = (List.finRange n).map fun i => .fin (R i : ℝ) :=
      List.map_congr_left fun i _ => by rw [g6 i (hall i), hall i]
    rw [el', hden, hWf] at q1
    have : (double.rounding ℝ).div (.fin ((((List.finRange n).map R).sum : ℕ) : ℝ)) (.fin ((((List.finRange n).map R).sum : ℕ) : ℝ)) = (double.rounding ℝ).rnd 1 := by
      rw [← div_self hne]
      exact congrArg (double.rounding ℝ).up (div_fin _ hne)
    rw [this, (double.rounding ℝ).one] at q1
    exact (XR.fin.inj q1).symm

end

theorem sum_finRange {M : Type} [AddCommMonoid M] {n : ℕ} (f : Fin n → M) : ((List.finRange n).map f).sum = ∑ i, f i := by
  rw [← List.ofFn_eq_map, List.sum_ofFn]

/-- Small errors do not hide imperfect precisions. -/
theorem gap_small {n : ℕ} (hn0 : 0 < n) (hn : n ≤ 2 ^ 17) {v x : ℝ} (hv : v ≤ 1 - 1 / ((n : ℝ) * n)) (h : |1 - v| ≤ (2 * n + x) * u * v) (hx : x ≤ 5) (hx0 : 0 ≤ x) : False := by
  have hu := u_pos
  have hnR : (1 : ℝ) ≤ n := by exact_mod_cast hn0
  have hnR' : (n : ℝ) ≤ 131072 := by exact_mod_cast hn
  have hnn : (0 : ℝ) < (n : ℝ) * n := by positivity
  have hnn' : (n : ℝ) * n ≤ 131072 * 131072 := mul_le_mul hnR' hnR' (by linarith) (by norm_num)
  have h1 : 1 / (131072 * 131072) ≤ 1 / ((n : ℝ) * n) := one_div_le_one_div_of_le hnn hnn'
  have h2 : 1 - v ≤ (2 * n + x) * u * v := (le_abs_self _).trans h
  have h3 : (2 * n + x) * u * v ≤ (2 * 131072 + 5) * u * 1 := by
    have hv1 : v ≤ 1 := hv.trans (by linarith [one_div_pos.2 hnn])
    have h5 : (2 * n + x) * u * v ≤ (2 * n + x) * u * 1 := mul_le_mul_of_nonneg_left hv1 (by positivity)
    refine h5.trans ?_
    have : (2 * (n : ℝ) + x) * u ≤ (2 * 131072 + 5) * u := mul_le_mul_of_nonneg_right (by linarith) hu.le
    linarith
  have h4 : (2 * 131072 + 5) * u * 1 < 1 / (131072 * 131072) := by
    rw [u_eq]
    norm_num
  linarith

theorem macro_one {n : ℕ} (c R : Fin n → ℕ) (hc : ∀ i, c i ≤ R i) (hR : ∀ i, R i ≤ n) (hn0 : 0 < n) (hn : n ≤ 2 ^ 17) {m : ℝ}
    (hm : |m - ((List.finRange n).map fun i => (c i : ℝ) / R i).sum / n| ≤ (2 * n + 3) * u * (((List.finRange n).map fun i => (c i : ℝ) / R i).sum / n))
    (hall : (∀ i, c i = R i ∧ 0 < R i) → m = 1) : m = 1 ↔ ((List.finRange n).map fun i => (c i : ℝ) / R i).sum / n = 1 := by
  have hu := u_pos
  have hnR : (0 : ℝ) < n := by exact_mod_cast hn0
  have key : |1 - ((List.finRange n).map fun i => (c i : ℝ) / R i).sum / n| ≤ (2 * n + 3) * u * (((List.finRange n).map fun i => (c i : ℝ) / R i).sum / n) →
      ∀ i, c i = R i ∧ 0 < R i := by
    intro h i
    by_contra hc'
    rw [sum_finRange] at h
    refine gap_small hn0 hn ?_ h (by norm_num) (by norm_num)
    have hi : (c i : ℝ) / R i ≤ 1 - 1 / n := by
      rcases Nat.eq_zero_or_pos (R i) with h0 | h0
      · rw [h0, Nat.cast_zero, div_zero, sub_nonneg, div_le_one hnR]
        exact_mod_cast hn0
      · have h1 : c i + 1 ≤ R i := by
          have := hc i
          by_contra hlt
          exact hc' ⟨by omega, h0⟩
        have h2 : (c i : ℝ) + 1 ≤ R i := by exact_mod_cast h1
        have h3 : (0 : ℝ) < R i := by exact_mod_cast h0
        have h4 : (R i : ℝ) ≤ n := by exact_mod_cast hR i
        have h5 := one_div_le_one_div_of_le h3 h4
        have h6 : (c i : ℝ) / R i ≤ 1 - 1 / R i := by
          rw [div_le_iff₀ h3, sub_mul, one_div, inv_mul_cancel₀ h3.ne']
          linarith
        linarith
    have hle : ∀ j, (c j : ℝ) / R j ≤ 1 := fun j => div_le_one_of_le₀ (by exact_mod_cast hc j) (Nat.cast_nonneg _)
    have hsum : ∑ j, (c j : ℝ) / R j ≤ n - 1 / n := by
      rw [← Finset.add_sum_erase _ _ (Finset.mem_univ i)]
      have h1 : ∑ j ∈ Finset.univ.erase i, (c j : ℝ) / R j ≤ ∑ j ∈ Finset.univ.erase i, (1 : ℝ) := Finset.sum_le_sum fun j _ => hle j
      rw [Finset.sum_const, Finset.card_erase_of_mem (Finset.mem_univ i), Finset.card_univ, Fintype.card_fin, nsmul_eq_mul, mul_one,
        Nat.cast_sub hn0, Nat.cast_one] at h1
      linarith
    rw [div_le_iff₀ hnR]
    refine hsum.trans_eq ?_
    field_simp
  constructor
  · intro h
    rw [h] at hm
    have h1 := key hm
    rw [sum_finRange, Finset.sum_congr rfl (g := fun _ => (1 : ℝ)) fun i _ => by
      rw [(h1 i).1]
      exact div_self (by exact_mod_cast (h1 i).2.ne')]
    simp [hnR.ne']
  · intro h
    refine hall (key ?_)
    rw [h, sub_self, abs_zero]
    positivity

theorem weighted_one {n : ℕ} (c R : Fin n → ℕ) (hc : ∀ i, c i ≤ R i) (hR : ∀ i, R i ≤ n) (h0 : 0 < ((List.finRange n).map R).sum) (hn : n ≤ 2 ^ 17) {q : ℝ}
    (hq : |q - ((List.finRange n).map fun i => (c i : ℝ)).sum / (((List.finRange n).map R).sum : ℕ)| ≤
      (2 * n + 5) * u * (((List.finRange n).map fun i => (c i : ℝ)).sum / (((List.finRange n).map R).sum : ℕ)))
    (hall : (∀ i, c i = R i) → q = 1) : q = 1 ↔ ((List.finRange n).map fun i => (c i : ℝ)).sum / (((List.finRange n).map R).sum : ℕ) = 1 := by
  have hu := u_pos
  have hn0 : 0 < n := by
    rcases Nat.eq_zero_or_pos n with rfl | h
    · simp at h0
    · exact h
  have hnR : (0 : ℝ) < n := by exact_mod_cast hn0
  rw [sum_finRange] at h0
  rw [sum_finRange, sum_finRange] at hq ⊢
  have hW : (0 : ℝ) < ((∑ i, R i : ℕ) : ℝ) := by exact_mod_cast h0
  have hcs : (∑ i, (c i : ℝ)) = ((∑ i, c i : ℕ) : ℝ) := by push_cast; rfl
  have hle : ∑ i, c i ≤ ∑ i, R i := Finset.sum_le_sum fun i _ => hc i
  have hWn : ((∑ i, R i : ℕ) : ℝ) ≤ (n : ℝ) * n := by
    have : ∑ i, R i ≤ ∑ _i : Fin n, n := Finset.sum_le_sum fun i _ => hR i
    rw [Finset.sum_const, Finset.card_univ, Fintype.card_fin, smul_eq_mul] at this
    exact_mod_cast this
  rw [hcs] at hq ⊢
  have key : |1 - ((∑ i, c i : ℕ) : ℝ) / ((∑ i, R i : ℕ) : ℝ)| ≤ (2 * n + 5) * u * (((∑ i, c i : ℕ) : ℝ) / ((∑ i, R i : ℕ) : ℝ)) → ∀ i, c i = R i := by
    intro h
    have he : ∑ i, c i = ∑ i, R i := by
      by_contra hne
      have hlt : ∑ i, c i + 1 ≤ ∑ i, R i := by omega
      have hlt' : ((∑ i, c i : ℕ) : ℝ) + 1 ≤ ((∑ i, R i : ℕ) : ℝ) := by exact_mod_cast hlt
      refine gap_small hn0 hn ?_ h (by norm_num) (by norm_num)
      have h5 := one_div_le_one_div_of_le hW hWn
      have h6 : ((∑ i, c i : ℕ) : ℝ) / ((∑ i, R i : ℕ) : ℝ) ≤ 1 - 1 / ((∑ i, R i : ℕ) : ℝ) := by
        rw [div_le_iff₀ hW, sub_mul, one_div, inv_mul_cancel₀ hW.ne']
        linarith
      linarith
    exact fun i => (Finset.sum_eq_sum_iff_of_le fun i _ => hc i).1 he i (Finset.mem_univ i)
  constructor
  · intro h
    rw [h] at hq
    have h1 := key hq
    rw [Finset.sum_congr rfl fun i _ => h1 i]
    exact div_self hW.ne'
  · intro h
    refine hall (key ?_)
    rw [h, sub_self, abs_zero]
    positivity

section
variable {n : ℕ} (o : ArgPart (XR ℝ)) (rnd : Rnd) (S : Fin n → Fin n → XR ℝ) (y : Fin n → ℤ) (sum : List (XR ℝ) → XR ℝ)

/-- Objects of the right class in the list of `i`. -/
noncomputable def rCorrect (i : Fin n) : ℕ := ((rNeighbours o rnd S (relevant y i) i).map y).countP (fun v => decide (v = y i))

theorem rCorrect_le (i : Fin n) : rCorrect o rnd S y i ≤ relevant y i := by
  unfold rCorrect
  refine List.countP_le_length.trans ?_
  rw [List.length_map]
  exact rNeighbours_length o rnd S _ i

theorem relevant_le (i : Fin n) : relevant y i ≤ n := by
  rw [relevant_eq]
  exact (Finset.card_le_univ _).trans (by simp)

theorem rWorker_quot (w : ℕ) (i : Fin n) : (rWorker o rnd S y w i).prec = (rCorrect o rnd S y i : ℝ) / relevant y i := by
  unfold rWorker
  simp only
  split
  · rename_i h
    rw [h, Nat.cast_zero, div_zero]
  · split
    · rename_i h
      rw [rCorrect, h, Nat.cast_zero, zero_div]
    · rfl

theorem rItem_quot (hn : n ≤ 2 ^ 25) (i : Fin n) : (double.rounding ℝ).rItem o rnd S y i = double.round ((rCorrect o rnd S y i : ℝ) / relevant y i) := by
  have h1 := (relevant_le y i).trans hn
  have h2 := (rCorrect_le o rnd S y i).trans h1
  unfold Rounding.rItem
  simp only
  split
  · rename_i h
    rw [h, Nat.cast_zero, div_zero]
    exact (double.rounding ℝ).zero.symm
  · rename_i hR
    split
    · rename_i h
      rw [rCorrect, h, Nat.cast_zero, zero_div]
      exact (double.rounding ℝ).zero.symm
    · exact quot_nat (h2.trans (by norm_num)) (h1.trans (by norm_num)) hR

/-- A call which passes the checks. -/
theorem rPrecision_float (R : Rounding ℝ) : R.rPrecision sum o rnd (.mat true n n S) (.vec n y) "similarity" =
    if sum ((List.finRange n).map (fun i => R.ofNat (relevant y i))) = .fin 0 then .error .zeroDivisionError else .ok ⟨n,
      { macroAvg := R.div (sum ((List.finRange n).map (R.rItem o rnd S y))) (R.ofNat n)
        weighted := R.div (sum ((List.finRange n).map (fun i => R.mul (R.rItem o rnd S y i) (R.ofNat (relevant y i)))))
          (sum ((List.finRange n).map (fun i => R.ofNat (relevant y i))))
        perItem := R.rItem o rnd S y
        relevantItems := relevant y }⟩ := by
  have h1 : checkMatrixLabels (.mat true n n S) (.vec n y) = .ok (true, ⟨n, S, y⟩) := by
    simp [checkMatrixLabels]
  have h2 : checkValidMetric "similarity" = .ok () := rfl
  unfold Rounding.rPrecision
  rw [h1, h2]
  by_cases hw : sum ((List.finRange n).map (fun i => R.ofNat (relevant y i))) = .fin 0
  · rw [if_pos hw]
    exact if_pos hw
  · rw [if_neg hw]
    exact if_neg hw

/-- **C286** (no pairs): if all labels are different, `r_precision` raises in floating point as well. -/
theorem C286_error (hsum : ∀ l, (∀ a ∈ l, (double.rounding ℝ).Float a) → (double.rounding ℝ).Sums l (sum l)) (hy : ¬ HasPair y) :
    (double.rounding ℝ).rPrecision sum o rnd (.mat true n n S) (.vec n y) "similarity" = .error .zeroDivisionError := by
  have h0 := (wsum_eq_zero y).2 hy
  have hz : ∀ i, relevant y i = 0 := fun i => List.sum_eq_zero_iff.1 h0 _ (List.mem_map_of_mem (List.mem_finRange i))
  rw [rPrecision_float]
  refine if_pos ?_
  have e : ((List.finRange n).map fun i => (double.rounding ℝ).ofNat (relevant y i)) = (List.finRange n).map fun i => .fin ((relevant y i : ℕ) : ℝ) :=
    List.map_congr_left fun i _ => by rw [hz i]; exact ofNat_exact (by norm_num)
  have hs := hsum ((List.finRange n).map fun i => .fin ((relevant y i : ℕ) : ℝ)) (by
    intro a ha
    obtain ⟨i, -, rfl⟩ := List.mem_map.1 ha
    rw [hz i]
    exact ofNat_exact (by norm_num))
  rw [e, sum_nat hs (by rw [h0]; norm_num), h0, Nat.cast_zero]

/-- **C286**: `r_precision` in double precision: the precision of each object is the exact one rounded once; both averages are in the unit interval with a
relative error of at most `(2 n + 3) · 2⁻⁵³` and `(2 n + 5) · 2⁻⁵³`, in whatever order the sums are computed. For up to 2¹⁷ objects the averages are one
exactly if the exact averages are. -/
theorem C286 (hsum : ∀ l, (∀ a ∈ l, (double.rounding ℝ).Float a) → (double.rounding ℝ).Sums l (sum l)) (w : ℕ) (hy : HasPair y) (hn : n ≤ 2 ^ 25) :
    ∃ (r : RRes ℝ n w) (f : RFloat ℝ n) (v m q : ℝ), Knn.rPrecision o rnd (.mat true n n S) (.vec n y) "similarity" w = .ok ⟨n, r⟩ ∧
      (double.rounding ℝ).rPrecision sum o rnd (.mat true n n S) (.vec n y) "similarity" = .ok ⟨n, f⟩ ∧
      f.relevantItems = r.relevantItems ∧ (∀ i, f.perItem i = double.round (r.perItem i)) ∧
      r.macroAvg = .fin v ∧ f.macroAvg = .fin m ∧ f.weighted = .fin q ∧ 0 ≤ m ∧ m ≤ 1 ∧ 0 ≤ q ∧ q ≤ 1 ∧
      |m - v| ≤ (2 * n + 3) * (1 / 2 ^ 53) * v ∧ |q - r.weighted| ≤ (2 * n + 5) * (1 / 2 ^ 53) * r.weighted ∧
      (n ≤ 2 ^ 17 → (m = 1 ↔ v = 1) ∧ (q = 1 ↔ r.weighted = 1)) := by
  have hu' : u = 1 / 2 ^ 53 := by rw [u_eq]; norm_num
  have hw : ((List.finRange n).map (relevant y)).sum ≠ 0 := fun h0 => (wsum_eq_zero y).1 h0 hy
  have hn0 : 0 < n := by
    obtain ⟨i, -⟩ := hy
    exact i.pos
  have hnR : (0 : ℝ) < n := by exact_mod_cast hn0
  obtain ⟨m, m1, m2, m3, m4, m5⟩ := macro_near (rCorrect o rnd S y) (relevant y) (rCorrect_le o rnd S y) (relevant_le y) hn sum hsum hn0
  obtain ⟨q, q1, q1', q2, q3, q4, q5⟩ := weighted_near (rCorrect o rnd S y) (relevant y) (rCorrect_le o rnd S y) (relevant_le y) hn sum hsum (Nat.pos_of_ne_zero hw)
  have eItem : (double.rounding ℝ).rItem o rnd S y = fun i => double.round ((rCorrect o rnd S y i : ℝ) / relevant y i) := funext fun i => rItem_quot o rnd S y hn i
  rw [rPrecision_eq, if_neg hw, rPrecision_float, if_neg q1', eItem]
  have hcr : ∀ i, (rCorrect o rnd S y i : ℝ) / relevant y i * relevant y i = rCorrect o rnd S y i := fun i => by
    rcases Nat.eq_zero_or_pos (relevant y i) with h | h
    · have := rCorrect_le o rnd S y i
      have : rCorrect o rnd S y i = 0 := by omega
      rw [this, Nat.cast_zero, zero_div, zero_mul]
    · exact div_mul_cancel₀ _ (by exact_mod_cast h.ne')
  have eW : ((List.finRange n).map fun i => (rWorker o rnd S y w i).prec * (relevant y i : ℝ)) = (List.finRange n).map fun i => (rCorrect o rnd S y i : ℝ) :=
    List.map_congr_left fun i _ => by rw [rWorker_quot, hcr i]
  have eM : ((List.finRange n).map fun i => (rWorker o rnd S y w i).prec) = (List.finRange n).map fun i => (rCorrect o rnd S y i : ℝ) / relevant y i :=
    List.map_congr_left fun i _ => by rw [rWorker_quot]
  refine ⟨_, _, ((List.finRange n).map fun i => (rCorrect o rnd S y i : ℝ) / relevant y i).sum / n, m, q, rfl, rfl, rfl, ?_, ?_, m1, q1, m2, m3, q2, q3, ?_, ?_, ?_⟩
  · intro i
    dsimp only
    rw [rWorker_quot]
  · dsimp only
    rw [if_neg hn0.ne', eM]
  · rw [← hu']
    exact m4
  · dsimp only
    rw [eW, ← hu']
    exact q4
  · intro hn17
    dsimp only
    rw [eW]
    exact ⟨macro_one _ _ (rCorrect_le o rnd S y) (relevant_le y) hn0 hn17 m4 m5,
      weighted_one _ _ (rCorrect_le o rnd S y) (relevant_le y) (Nat.pos_of_ne_zero hw) hn17 q4 q5⟩

/-- **C286** (consequence): with up to 2¹⁷ objects, a reported weighted R-precision of one means that nobody is more similar to an object of another class than
to one of the own class. -/
theorem C286_separated (hsum : ∀ l, (∀ a ∈ l, (double.rounding ℝ).Float a) → (double.rounding ℝ).Sums l (sum l)) (s : Fin n → Fin n → ℝ)
    (hs : Knn.Similarities s) (hn : n ≤ 2 ^ 17) (f : RFloat ℝ n)
    (h : (double.rounding ℝ).rPrecision sum o rnd (.mat true n n (fun i j => .fin (s i j))) (.vec n y) "similarity" = .ok ⟨n, f⟩) (h1 : f.weighted = .fin 1)
    (i j b : Fin n) (hj : j ≠ i) (hyj : y j = y i) (hb : y b ≠ y i) : s i b ≤ s i j := by
  obtain ⟨r, f', v, m, q, r1, f1, -, -, -, -, q1, -, -, -, -, -, -, h2⟩ := C286 o rnd (fun i j => .fin (s i j)) y sum hsum 0 ⟨i, j, hj, hyj⟩ (hn.trans (by norm_num))
  have e : f' = f := by
    rw [h] at f1
    have := Except.ok.inj f1
    simpa using this.symm
  subst e
  have hq : q = 1 := XR.fin.inj (q1.symm.trans h1)
  exact Knn.C277_only_if o rnd s y 0 hs r r1 ((h2 hn).2.1 hq) i j b hj hyj hb

/-- **C286** (perfect classes): if everybody is more similar to all objects of the own class than to any other object, the reported weighted R-precision
is exactly one. -/
theorem C286_perfect (hsum : ∀ l, (∀ a ∈ l, (double.rounding ℝ).Float a) → (double.rounding ℝ).Sums l (sum l)) (s : Fin n → Fin n → ℝ) (hy : HasPair y)
    (hs : Knn.Similarities s) (hpos : ∀ i j, y i = y j → 0 < s i j) (hsep : Spec.Separated (fun i j => -s i j) y) (hn : n ≤ 2 ^ 17) :
    ∃ f : RFloat ℝ n, (double.rounding ℝ).rPrecision sum o rnd (.mat true n n (fun i j => .fin (s i j))) (.vec n y) "similarity" = .ok ⟨n, f⟩ ∧ f.weighted = .fin 1 := by
  obtain ⟨r, f, v, m, q, r1, f1, -, -, -, -, q1, -, -, -, -, -, -, h2⟩ := C286 o rnd (fun i j => .fin (s i j)) y sum hsum 0 hy (hn.trans (by norm_num))
  obtain ⟨r', r1', w1, -⟩ := C277_perfect o rnd s y 0 hy hs hpos hsep
  have e : r' = r := by
    rw [r1] at r1'
    have := Except.ok.inj r1'
    simpa using this.symm
  subst e
  exact ⟨f, f1, by rw [q1, (h2 hn).2.2 w1]⟩

end

/-! ### Instances -/

/-- Three objects, two of which are in the same class. -/
example (o : ArgPart (XR ℝ)) (rnd : Rnd) := C286 o rnd (n := 3) (fun i j => .fin (if i = j then 2 else 1)) ![0, 0, 1]
  (fun l => l.foldl (double.rounding ℝ).add (.fin 0)) (fun l hl => sums_foldl _ l hl) 1 ⟨0, 1, by decide, rfl⟩ (by norm_num)

example (o : ArgPart (XR ℝ)) (rnd : Rnd) := C286_error o rnd (n := 2) (fun _ _ => .fin 1) ![0, 1]
  (fun l => l.foldl (double.rounding ℝ).add (.fin 0)) (fun l hl => sums_foldl _ l hl) (by unfold HasPair; decide)

/-- Two classes of two objects. -/
noncomputable def pairSim (i j : Fin 4) : ℝ := ((![![4, 3, 1, 1], ![3, 4, 1, 1], ![1, 1, 4, 3], ![1, 1, 3, 4]] : Fin 4 → Fin 4 → ℕ) i j : ℝ)

theorem pairSim_similarities : Knn.Similarities pairSim :=
  ⟨fun i j => Nat.cast_nonneg _, fun i j h => by
    unfold pairSim
    exact Nat.cast_lt.2 (by revert i j; decide)⟩

theorem pairSim_fit (o : ArgPart (XR ℝ)) (rnd : Rnd) : ∃ f : RFloat ℝ 4, (double.rounding ℝ).rPrecision (fun l => l.foldl (double.rounding ℝ).add (.fin 0)) o rnd
    (.mat true 4 4 (fun i j => .fin (pairSim i j))) (.vec 4 ![5, 5, 6, 6]) "similarity" = .ok ⟨4, f⟩ ∧ f.weighted = .fin 1 := by
  refine C286_perfect o rnd ![5, 5, 6, 6] _ (fun l hl => sums_foldl _ l hl) pairSim ⟨0, 1, by decide, rfl⟩ pairSim_similarities ?_ ?_ (by norm_num)
  · intro i j h
    unfold pairSim
    exact Nat.cast_pos.2 (by revert i j; decide)
  · intro i j b h1 h2 h3
    unfold pairSim
    exact neg_lt_neg (Nat.cast_lt.2 (by revert i j b; decide))

example (o : ArgPart (XR ℝ)) (rnd : Rnd) := C286_separated o rnd _ _ (fun l hl => sums_foldl _ l hl) pairSim pairSim_similarities (by norm_num) _
  (pairSim_fit o rnd).choose_spec.1 (pairSim_fit o rnd).choose_spec.2 0 1 2 (by decide) rfl (by decide)

end HubToolbox.Rounding
