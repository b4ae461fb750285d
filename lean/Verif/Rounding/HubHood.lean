import Verif.Rounding.HubStats

/-!
# C279: the Robin Hood index in double precision
-/

set_option autoImplicit false

namespace HubToolbox.Rounding

open HubToolbox Ieee

theorem ofNat_exact {a : ℕ} (h : a ≤ 2 ^ 53) : (double.rounding ℝ).ofNat a = .fin (a : ℝ) := by
  have := round_int (z := (a : ℤ)) (by rw [abs_of_nonneg (Int.natCast_nonneg a)]; exact_mod_cast h)
  rw [Int.cast_natCast] at this
  exact this

theorem sub_fin (R : Rounding ℝ) (a b : ℝ) : R.sub (.fin a) (.fin b) = R.rnd (a - b) := by
  rw [sub_eq_add_neg]
  rfl

/-- Sizes for which the indices are computed reliably. -/
structure HubSizes (Nk : List ℕ) : Prop where
  length_pos : 0 < Nk.length
  length_le : Nk.length ≤ 2 ^ 25
  sum_pos : 0 < Nk.sum
  product : 2 * Nk.length * Nk.sum ≤ 2 ^ 53

section
variable {Nk : List ℕ} (h : HubSizes Nk)
include h

theorem HubSizes.sum_le : Nk.sum ≤ 2 ^ 52 := by
  have := h.product
  have := h.length_pos
  have : 1 * Nk.sum ≤ Nk.length * Nk.sum := Nat.mul_le_mul_right _ this
  rw [Nat.mul_assoc] at *
  omega

theorem HubSizes.mem_le {v : ℕ} (hv : v ∈ Nk) : v ≤ 2 ^ 52 := (mem_le_sum hv).trans h.sum_le

theorem HubSizes.ofNat_mem {v : ℕ} (hv : v ∈ Nk) : (double.rounding ℝ).ofNat v = .fin (v : ℝ) :=
  ofNat_exact ((h.mem_le hv).trans (by norm_num))

theorem HubSizes.map_ofNat : Nk.map (fun v => (double.rounding ℝ).ofNat v) = (Nk.map (fun v : ℕ => (v : ℤ))).map (fun z : ℤ => .fin (z : ℝ)) := by
  rw [List.map_map]
  refine List.map_congr_left fun v hv => ?_
  rw [h.ofNat_mem hv]
  simp

theorem HubSizes.mean (L : SkewLib ℝ) (hL : L.Near) :
    (double.rounding ℝ).mean L (Nk.map (fun v => (double.rounding ℝ).ofNat v)) = double.round ((Nk.sum : ℝ) / (Nk.length : ℝ)) := by
  have e0 : (Nk.map (fun v : ℕ => (v : ℤ))).sum = (Nk.sum : ℤ) := (Nat.cast_list_sum Nk).symm
  have hs := h.sum_le
  have hl := h.length_le
  rw [h.map_ofNat, mean_int L hL _ ?_ (by rw [List.length_map]; exact h.length_pos) (by rw [List.length_map]; omega)]
  · rw [e0, List.length_map, Int.cast_natCast]
  · rw [List.map_map, List.map_congr_left (g := fun v : ℕ => (v : ℤ)) (fun v _ => by simp), e0]
    have : (Nk.sum : ℤ) ≤ 2 ^ 52 := by exact_mod_cast hs
    linarith

end

theorem list_sum_le {α : Type} {l : List α} {f g : α → ℝ} (h : ∀ a ∈ l, f a ≤ g a) : (l.map f).sum ≤ (l.map g).sum := List.sum_le_sum h

theorem list_sum_const {α : Type} (l : List α) (c : ℝ) : (l.map (fun _ => c)).sum = l.length * c := by
  rw [List.map_const', List.sum_replicate, nsmul_eq_mul]

theorem list_sum_add {α : Type} (l : List α) (f g : α → ℝ) : (l.map (fun a => f a + g a)).sum = (l.map f).sum + (l.map g).sum :=
  List.sum_map_add

theorem list_sum_mul {α : Type} (l : List α) (c : ℝ) (f : α → ℝ) : (l.map (fun a => c * f a)).sum = c * (l.map f).sum :=
  List.sum_map_mul_left ..

theorem u_le_50 : u ≤ 1 / 2 ^ 50 := by
  rw [u_eq]
  norm_num

/-- The exact index. -/
theorem hood_exact (Nk : List ℕ) : (HubClass.hood Nk : ℝ) = (Nk.map (fun v : ℕ => |(v : ℝ) - (Nk.sum : ℝ) / Nk.length|)).sum / (2 * (Nk.sum : ℝ)) := by
  unfold HubClass.hood
  simp only
  rw [div_mul_eq_div_div, mul_comm, ← div_eq_mul_one_div]

/-- Errors of the four steps. -/
theorem hood_steps {n : ℝ} {hh σ ν ω q γ : ℝ} (h0 : 0 ≤ hh) (h1 : hh ≤ 1) (hn : 1 ≤ n) (hn' : n * u ≤ 1 / 2 ^ 20) (hγ : γ ≤ n * u) (hγ0 : 0 ≤ γ)
    (e1 : |σ - hh| ≤ u * hh + (u + u * u) / 2) (hσ : 0 ≤ σ) (e2 : |ν - σ| ≤ γ * σ) (e3 : |ω - ν| ≤ u * ν) (e4 : |q - ω| ≤ u * ω) :
    |q - hh| ≤ (n + 5) * u := by
  have hu := u_pos
  have hut := u_le_50
  have huu : u * u ≤ u * (1 / 2 ^ 50) := mul_le_mul_of_nonneg_left hut hu.le
  have huh : u * hh ≤ u := mul_le_of_le_one_right hu.le h1
  have e1' : |σ - hh| ≤ 8 / 5 * u := by
    refine e1.trans ?_
    norm_num at huu ⊢
    linarith
  obtain ⟨a1, a2⟩ := abs_le.1 e1'
  have hσ1 : σ ≤ 1 + 2 * u := by linarith
  have hγσ : γ * σ ≤ n * u * (1 + 2 * u) := by
    calc γ * σ ≤ n * u * σ := mul_le_mul_of_nonneg_right hγ hσ
      _ ≤ n * u * (1 + 2 * u) := mul_le_mul_of_nonneg_left hσ1 (by positivity)
  have hnu : n * u * (1 + 2 * u) ≤ n * u + u / 10 := by
    have : n * u * u ≤ 1 / 2 ^ 20 * u := mul_le_mul_of_nonneg_right hn' hu.le
    norm_num at this ⊢
    linarith
  obtain ⟨b1, b2⟩ := abs_le.1 e2
  have hν : ν ≤ 6 / 5 := by
    norm_num at hn' hut
    linarith
  have hν' : u * ν ≤ 6 / 5 * u := by
    rw [mul_comm]
    exact mul_le_mul_of_nonneg_right hν hu.le
  obtain ⟨c1, c2⟩ := abs_le.1 e3
  have hω : ω ≤ 13 / 10 := by
    norm_num at hut
    linarith
  have hω' : u * ω ≤ 13 / 10 * u := by
    rw [mul_comm]
    exact mul_le_mul_of_nonneg_right hω hu.le
  obtain ⟨d1, d2⟩ := abs_le.1 e4
  exact abs_le.2 ⟨by linarith, by linarith⟩

theorem hood_gamma {n : ℕ} (h0 : 0 < n) (hn : n ≤ 2 ^ 25) : (1 + u) ^ (n - 1) - 1 ≤ n * u := by
  have hu := u_pos
  have hut := u_le_50
  have hn' : (n : ℝ) ≤ 2 ^ 25 := by exact_mod_cast hn
  have h1 : (1 : ℝ) ≤ n := by exact_mod_cast h0
  have e : ((n - 1 : ℕ) : ℝ) = (n : ℝ) - 1 := by rw [Nat.cast_sub h0, Nat.cast_one]
  have hlt : ((n : ℝ) - 1) * u < 1 := by
    have := mul_le_mul_of_nonneg_left hut (show (0 : ℝ) ≤ n - 1 by linarith)
    have h3 : (n : ℝ) ≤ 33554432 := hn'.trans (by norm_num)
    norm_num at this ⊢
    linarith
  have hp := pow_le (m := n - 1) (by rw [e]; exact hlt)
  rw [e] at hp
  have hpos : 0 < 1 - ((n : ℝ) - 1) * u := by linarith
  refine (sub_le_sub_right hp 1).trans ?_
  rw [div_sub_one hpos.ne', div_le_iff₀ hpos]
  have h2 : (n : ℝ) * ((n : ℝ) - 1) * u ≤ 1 := by
    have h3 : (n : ℝ) * ((n : ℝ) - 1) ≤ 2 ^ 25 * 2 ^ 25 := mul_le_mul hn' (by linarith) (by linarith) (by norm_num)
    calc (n : ℝ) * ((n : ℝ) - 1) * u ≤ 2 ^ 25 * 2 ^ 25 * (1 / 2 ^ 50) := mul_le_mul h3 hut hu.le (by positivity)
      _ = 1 := by norm_num
  have h4 := mul_le_mul_of_nonneg_left h2 hu.le
  linarith

theorem small_emin {x : ℝ} (h : 1 / 2 ^ 100 ≤ x) : (2 : ℝ) ^ double.emin ≤ x := by
  refine le_trans ?_ h
  rw [one_div, ← zpow_natCast, ← zpow_neg]
  exact zpow_le_zpow_right₀ one_le_two (by decide)

theorem small_emax {x : ℝ} (h : x ≤ 2 ^ 60) : x ≤ (2 : ℝ) ^ double.emax := by
  refine h.trans ?_
  rw [← zpow_natCast]
  exact zpow_le_zpow_right₀ one_le_two (by decide)

/-- Rounding of numbers of moderate size. -/
theorem rel_moderate {x : ℝ} (h : x = 0 ∨ 1 / 2 ^ 100 ≤ |x|) (hb : |x| ≤ 2 ^ 60) : ∃ y, double.round x = .fin y ∧ double.round y = .fin y ∧ |y - x| ≤ u * |x| :=
  double.round_rel (h.imp_right small_emin) (small_emax hb)

section
variable {Nk : List ℕ} (h : HubSizes Nk)
include h

/-- Equal counts have no deviation. -/
theorem hood_equal (L : SkewLib ℝ) (hL : L.Near) {c : ℕ} (hc : ∀ v ∈ Nk, v = c) : (double.rounding ℝ).hood L Nk = .fin 0 := by
  have hn : (0 : ℝ) < Nk.length := by exact_mod_cast h.length_pos
  have hs : (0 : ℝ) < Nk.sum := by exact_mod_cast h.sum_pos
  have hsum : Nk.sum = Nk.length * c := by
    rw [List.eq_replicate_iff.2 ⟨rfl, hc⟩]
    simp
  have hcm : c ∈ Nk := by
    obtain ⟨v, hv⟩ := List.exists_mem_of_length_pos h.length_pos
    exact hc v hv ▸ hv
  have hm := h.mean L hL
  have e0 : (Nk.sum : ℝ) / Nk.length = c := by
    rw [hsum, Nat.cast_mul, mul_div_cancel_left₀ _ hn.ne']
  rw [e0] at hm
  have e1 : double.round (c : ℝ) = .fin (c : ℝ) := h.ofNat_mem hcm
  rw [e1] at hm
  unfold hood
  simp only [hm]
  have e2 : (Nk.map (fun v => (double.rounding ℝ).ofNat v)).map (fun v => xabs ((double.rounding ℝ).sub v (.fin (c : ℝ)))) =
      (Nk.map (fun _ => (0 : ℝ))).map .fin := by
    rw [List.map_map, List.map_map]
    refine List.map_congr_left fun v hv => ?_
    rw [Function.comp_apply, Function.comp_apply, h.ofNat_mem hv, hc v hv]
    rw [sub_fin, sub_self, (double.rounding ℝ).zero]
    simp [xabs]
  have hz : ∀ x ∈ Nk.map (fun _ => (0 : ℝ)), x = 0 := by
    intro x hx
    obtain ⟨_, _, rfl⟩ := List.mem_map.1 hx
    rfl
  have hz0 : (Nk.map (fun _ => (0 : ℝ))).sum = 0 := by rw [list_sum_const, mul_zero]
  have hz1 : ((Nk.map (fun _ => (0 : ℝ))).map (|·|)).sum = 0 := by
    rw [List.map_congr_left (g := fun x => x) (fun x hx => by rw [hz x hx, abs_zero]), List.map_id', hz0]
  obtain ⟨v, hv, -, hve⟩ := double.sum_error (l := Nk.map (fun _ => (0 : ℝ))) (hL.sum_some_order _ (by
      intro a ha
      obtain ⟨x, hx, rfl⟩ := List.mem_map.1 ha
      rw [hz x hx]
      exact (double.rounding ℝ).zero)) (by
      intro x hx
      rw [hz x hx]
      exact (double.rounding ℝ).zero) (by
      rw [hz1, mul_zero]
      positivity)
  rw [hz1, hz0, mul_zero, sub_zero] at hve
  rw [abs_nonpos_iff.1 hve] at hv
  rw [e2, hv]
  have e3 : (double.rounding ℝ).mul (.fin (1 / 2)) (.fin 0) = .fin 0 := by
    unfold mul XR.mul
    simp only [mul_zero]
    exact (double.rounding ℝ).zero
  have e4 : (double.rounding ℝ).ofNat Nk.sum = .fin (Nk.sum : ℝ) := ofNat_exact (h.sum_le.trans (by norm_num))
  rw [e3, e4]
  unfold div XR.div
  simp only [hs.ne', if_false, zero_div]
  exact (double.rounding ℝ).zero

/-- Different counts: the relative errors of the steps. -/
theorem hood_unequal (L : SkewLib ℝ) (hL : L.Near) (hne : ∃ a ∈ Nk, ∃ b ∈ Nk, a ≠ b) (h1 : (HubClass.hood Nk : ℝ) ≤ 1) :
    ∃ q, (double.rounding ℝ).hood L Nk = .fin q ∧ 0 < q ∧ |q - HubClass.hood Nk| ≤ ((Nk.length : ℝ) + 5) * u := by
  have hu := u_pos
  have hut := u_le_50
  have hut' : u ≤ 1 / 1125899906842624 := hut.trans (by norm_num)
  have hn1 : (1 : ℝ) ≤ Nk.length := by exact_mod_cast h.length_pos
  have hn : (0 : ℝ) < Nk.length := by linarith
  have hs1 : (1 : ℝ) ≤ ((Nk.sum : ℕ) : ℝ) := by exact_mod_cast h.sum_pos
  have hs52 : ((Nk.sum : ℕ) : ℝ) ≤ 2 ^ 52 := by exact_mod_cast h.sum_le
  have hl25 : (Nk.length : ℝ) ≤ 2 ^ 25 := by exact_mod_cast h.length_le
  have hprod : 2 * (Nk.length : ℝ) * ((Nk.sum : ℕ) : ℝ) ≤ 2 ^ 53 := by exact_mod_cast h.product
  have hm := h.mean L hL
  have e4 : (double.rounding ℝ).ofNat Nk.sum = .fin ((Nk.sum : ℕ) : ℝ) := ofNat_exact (h.sum_le.trans (by norm_num))
  have hex := hood_exact Nk
  generalize hS : ((Nk.sum : ℕ) : ℝ) = s at *
  generalize hN : (Nk.length : ℝ) = n at *
  set μ := s / n with hμ
  have hμ0 : 0 < μ := div_pos (by linarith) hn
  obtain ⟨a, ha, b, hb, hab⟩ := hne
  have hn2 : 2 ≤ n := by
    have : 2 ≤ Nk.length := by
      by_contra hlt
      have e : Nk.length = 1 := by have := h.length_pos; omega
      obtain ⟨c, hc⟩ := List.length_eq_one_iff.1 e
      rw [hc] at ha hb
      exact hab ((List.mem_singleton.1 ha).trans (List.mem_singleton.1 hb).symm)
    rw [← hN]
    exact_mod_cast this
  have hs51 : s ≤ 2 ^ 51 := by
    have : 4 * s ≤ 2 * n * s := by
      have := mul_le_mul_of_nonneg_right hn2 (show 0 ≤ 2 * s by linarith)
      linarith
    norm_num at hprod ⊢
    linarith
  have hμs : μ ≤ s := by
    rw [hμ]
    exact div_le_self (by linarith) hn1
  have hus : u * s ≤ 1 / 4 := by
    rw [u_eq]
    have : (2 : ℝ) ^ (-53 : ℤ) * s ≤ 2 ^ (-53 : ℤ) * 2 ^ 51 := mul_le_mul_of_nonneg_left hs51 (by positivity)
    refine this.trans ?_
    norm_num
  have huμ : u * μ ≤ 1 / 4 := (mul_le_mul_of_nonneg_left hμs hu.le).trans hus
  have hμlow : 1 / 2 ^ 25 ≤ μ := by
    rw [hμ]
    exact div_le_div₀ (by linarith) hs1 hn hl25
  obtain ⟨m, hm1, hm2, hm3⟩ := rel_moderate (x := μ) (Or.inr (by
      rw [abs_of_pos hμ0]
      refine le_trans ?_ hμlow
      norm_num)) (by
      rw [abs_of_pos hμ0]
      refine hμs.trans (hs51.trans ?_)
      norm_num)
  rw [abs_of_pos hμ0] at hm3
  obtain ⟨m3a, m3b⟩ := abs_le.1 hm3
  rw [hm1] at hm
  have hvb : ∀ v ∈ Nk, (v : ℝ) ≤ s := fun v hv => by
    rw [← hS]
    exact_mod_cast mem_le_sum hv
  have hz : ∀ v ∈ Nk, ∃ z : ℝ, (double.rounding ℝ).sub ((double.rounding ℝ).ofNat v) (.fin m) = .fin z ∧ double.round z = .fin z ∧
      |z - ((v : ℝ) - m)| ≤ u * |(v : ℝ) - m| := by
    intro v hv
    have hf : double.round (v : ℝ) = .fin (v : ℝ) := h.ofNat_mem hv
    obtain ⟨z, z1, z2, z3⟩ := double.add_float hf (double.neg_float hm2) (small_emax (by
      have hv' := hvb v hv
      have hv0 : (0 : ℝ) ≤ v := Nat.cast_nonneg v
      have h51 : s ≤ 2251799813685248 := hs51.trans (by norm_num)
      rw [abs_le]
      norm_num
      constructor <;> linarith))
    rw [← sub_eq_add_neg] at z3
    rw [h.ofNat_mem hv]
    exact ⟨z, z1, z2, z3⟩
  choose! z z1 z2 z3 using hz
  have zf : ∀ v ∈ Nk, double.round |z v| = .fin |z v| := by
    intro v hv
    rcases abs_cases (z v) with ⟨e, -⟩ | ⟨e, -⟩
    · rw [e]; exact z2 v hv
    · rw [e]; exact double.neg_float (z2 v hv)
  have zd : ∀ v ∈ Nk, |(|z v| - |(v : ℝ) - μ|)| ≤ u * |(v : ℝ) - μ| + (u + u * u) * μ := by
    intro v hv
    have t1 := abs_abs_sub_abs_le_abs_sub (z v) ((v : ℝ) - μ)
    have t2 : |z v - ((v : ℝ) - μ)| ≤ |z v - ((v : ℝ) - m)| + |m - μ| := by
      have := abs_sub (z v - ((v : ℝ) - m)) (m - μ)
      have e : z v - ((v : ℝ) - m) - (m - μ) = z v - ((v : ℝ) - μ) := by ring
      rwa [e] at this
    have t3 : |(v : ℝ) - m| ≤ |(v : ℝ) - μ| + |m - μ| := by
      have := abs_sub ((v : ℝ) - μ) (m - μ)
      have e : (v : ℝ) - μ - (m - μ) = v - m := by ring
      rwa [e] at this
    have t4 := z3 v hv
    have t5 : u * |(v : ℝ) - m| ≤ u * (|(v : ℝ) - μ| + u * μ) := mul_le_mul_of_nonneg_left (by linarith) hu.le
    linarith
  set S := (Nk.map (fun v => |z v|)).sum with hSd
  set E := (Nk.map (fun v : ℕ => |(v : ℝ) - μ|)).sum with hEd
  have hE0 : 0 ≤ E := List.sum_nonneg (by
    intro x hx
    obtain ⟨v, _, rfl⟩ := List.mem_map.1 hx
    exact abs_nonneg _)
  have hnμ : n * μ = s := by rw [hμ, mul_div_cancel₀ _ hn.ne']
  have hcs : (Nk.map (fun _ : ℕ => (u + u * u) * μ)).sum = (u + u * u) * s := by
    rw [list_sum_const, hN, ← hnμ]
    ring
  have hSE : |S - E| ≤ u * E + (u + u * u) * s := by
    rw [abs_le]
    constructor
    · have := list_sum_le (l := Nk) (f := fun v => |(v : ℝ) - μ|) (g := fun v => |z v| + (u * |(v : ℝ) - μ| + (u + u * u) * μ))
        (fun v hv => by have := (abs_le.1 (zd v hv)).1; linarith)
      rw [list_sum_add, list_sum_add, list_sum_mul, hcs] at this
      linarith
    · have := list_sum_le (l := Nk) (f := fun v => |z v|) (g := fun v => |(v : ℝ) - μ| + (u * |(v : ℝ) - μ| + (u + u * u) * μ))
        (fun v hv => by have := (abs_le.1 (zd v hv)).2; linarith)
      rw [list_sum_add, list_sum_add, list_sum_mul, hcs] at this
      linarith
  have hS0 : 1 / 8 ≤ S := by
    have hfar : ∃ v ∈ Nk, 1 / 2 ≤ |(v : ℝ) - μ| := by
      by_contra hcon
      push Not at hcon
      have c1 := abs_lt.1 (hcon a ha)
      have c2 := abs_lt.1 (hcon b hb)
      have d1 : (a : ℝ) < b + 1 := by linarith
      have d2 : (b : ℝ) < a + 1 := by linarith
      have d1' : a < b + 1 := by exact_mod_cast d1
      have d2' : b < a + 1 := by exact_mod_cast d2
      omega
    obtain ⟨v, hv, hfv⟩ := hfar
    have t1 : |(v : ℝ) - m| ≥ 1 / 4 := by
      have := abs_sub_abs_le_abs_sub ((v : ℝ) - μ) ((v : ℝ) - m)
      have e : (v : ℝ) - μ - (v - m) = m - μ := by ring
      rw [e] at this
      linarith
    have t2 : |z v| ≥ 1 / 8 := by
      have := abs_sub_abs_le_abs_sub ((v : ℝ) - m) (z v)
      rw [abs_sub_comm ((v : ℝ) - m) (z v)] at this
      have t4 := z3 v hv
      have t5 : u * |(v : ℝ) - m| ≤ 1 / 2 * |(v : ℝ) - m| := mul_le_mul_of_nonneg_right (by linarith) (abs_nonneg _)
      linarith
    refine le_trans t2 ?_
    exact List.single_le_sum (by
      intro x hx
      obtain ⟨w, _, rfl⟩ := List.mem_map.1 hx
      exact abs_nonneg _) _ (List.mem_map.2 ⟨v, hv, rfl⟩)
  have hE2 : E ≤ 2 * s := by
    rw [hex, div_le_one (by linarith)] at h1
    exact h1
  have huu : u * u ≤ u := mul_le_of_le_one_right hu.le (by linarith)
  have hS4 : S ≤ 4 * s := by
    have := (abs_le.1 hSE).2
    have t1 : u * E ≤ 1 / 4 * E := mul_le_mul_of_nonneg_right (by linarith) hE0
    have t2 : (u + u * u) * s ≤ 1 * s := mul_le_mul_of_nonneg_right (by linarith) (by linarith)
    linarith
  have hγ := hood_gamma h.length_pos h.length_le
  rw [hN] at hγ
  have hγ0 : 0 ≤ (1 + u) ^ (Nk.length - 1) - 1 := sub_nonneg.2 (one_le_pow₀ (by linarith))
  have hnu : n * u ≤ 1 / 2 ^ 20 := by
    have : n * u ≤ 2 ^ 25 * (1 / 2 ^ 50) := mul_le_mul hl25 hut hu.le (by positivity)
    refine this.trans ?_
    norm_num
  have hnu' : n * u ≤ 1 / 1048576 := hnu.trans (by norm_num)
  have hmapabs : ((Nk.map (fun v => |z v|)).map (|·|)).sum = S := by
    rw [List.map_map, hSd]
    refine congrArg List.sum (List.map_congr_left fun v _ => ?_)
    simp
  have e2 : (Nk.map (fun v => (double.rounding ℝ).ofNat v)).map (fun v => xabs ((double.rounding ℝ).sub v (.fin m))) =
      (Nk.map (fun v => |z v|)).map .fin := by
    rw [List.map_map, List.map_map]
    refine List.map_congr_left fun v hv => ?_
    rw [Function.comp_apply, Function.comp_apply, z1 v hv]
    rfl
  obtain ⟨V, hV1, hV2, hV3⟩ := double.sum_error (l := Nk.map (fun v => |z v|)) (hL.sum_some_order _ (by
      intro x hx
      obtain ⟨y, hy, rfl⟩ := List.mem_map.1 hx
      obtain ⟨v, hv, rfl⟩ := List.mem_map.1 hy
      exact zf v hv)) (by
      intro y hy
      obtain ⟨v, hv, rfl⟩ := List.mem_map.1 hy
      exact zf v hv) (by
      rw [hmapabs, List.length_map]
      refine small_emax ?_
      have t : (1 + u) ^ (Nk.length - 1) * S ≤ 2 * (4 * s) := mul_le_mul (by linarith) hS4 (by linarith) (by norm_num)
      norm_num at hs51 ⊢
      linarith)
  rw [hmapabs, List.length_map, ← hSd] at hV3
  generalize hγd : (1 + u) ^ (Nk.length - 1) - 1 = γ at *
  have hγS : γ * S ≤ 1 / 2 * S := mul_le_mul_of_nonneg_right (by linarith) (by linarith)
  obtain ⟨V3a, V3b⟩ := abs_le.1 hV3
  have hV0 : 1 / 16 ≤ V := by linarith
  have hV8 : V ≤ 8 * s := by linarith
  obtain ⟨W, hW1, hW2, hW3⟩ := rel_moderate (x := 1 / 2 * V) (Or.inr (by
      rw [abs_of_nonneg (by linarith)]
      norm_num
      linarith)) (by
      rw [abs_of_nonneg (by linarith)]
      norm_num at hs51 ⊢
      linarith)
  rw [abs_of_nonneg (show 0 ≤ 1 / 2 * V by linarith)] at hW3
  obtain ⟨W3a, W3b⟩ := abs_le.1 hW3
  have huV : u * (1 / 2 * V) ≤ 1 / 2 * (1 / 2 * V) := mul_le_mul_of_nonneg_right (by linarith) (by linarith)
  have hW0 : 1 / 64 ≤ W := by linarith
  have hW16 : W ≤ 16 * s := by linarith
  have hWs0 : 0 < W / s := div_pos (by linarith) (by linarith)
  obtain ⟨q, hq1, hq2, hq3⟩ := rel_moderate (x := W / s) (Or.inr (by
      rw [abs_of_pos hWs0]
      have : (1 / 64 : ℝ) / 2 ^ 51 ≤ W / s := div_le_div₀ (by linarith) hW0 (by linarith) hs51
      refine le_trans ?_ this
      norm_num)) (by
      rw [abs_of_pos hWs0, div_le_iff₀ (by linarith)]
      refine hW16.trans ?_
      exact mul_le_mul_of_nonneg_right (by norm_num) (by linarith))
  rw [abs_of_pos hWs0] at hq3
  refine ⟨q, ?_, ?_, ?_⟩
  · unfold hood
    simp only [hm]
    rw [e2, hV1, e4]
    have e3 : (double.rounding ℝ).mul (.fin (1 / 2)) (.fin V) = .fin W := hW1
    rw [e3]
    have hne : s ≠ 0 := by linarith
    unfold div XR.div
    simp only [hne, if_false]
    exact hq1
  · have : u * (W / s) ≤ 1 / 2 * (W / s) := mul_le_mul_of_nonneg_right (by linarith) hWs0.le
    have := (abs_le.1 hq3).1
    linarith
  · have h2s : 0 < 2 * s := by linarith
    refine hood_steps (σ := S / (2 * s)) (ν := V / (2 * s)) (ω := W / s) (γ := γ) ?_ h1 hn1 hnu hγ hγ0 ?_ (by positivity) ?_ ?_ hq3
    · rw [hex]
      positivity
    · rw [hex, ← sub_div, abs_div, abs_of_pos h2s]
      refine (div_le_div_of_nonneg_right hSE h2s.le).trans_eq ?_
      field_simp
    · rw [← sub_div, abs_div, abs_of_pos h2s, ← mul_div_assoc]
      exact div_le_div_of_nonneg_right hV3 h2s.le
    · have e5 : W / s - V / (2 * s) = (W - 1 / 2 * V) / s := by field_simp
      have e6 : u * (V / (2 * s)) = u * (1 / 2 * V) / s := by field_simp
      rw [e5, e6, abs_div, abs_of_pos (show 0 < s by linarith)]
      exact div_le_div_of_nonneg_right hW3 (by linarith)

end

end HubToolbox.Rounding
