import Verif.Rounding.CountModel
import Verif.MPEmp.Props
import Verif.SNN.Props

/-!
# Rounding does not harm secondary distances from counts (C182, C183)
-/

set_option autoImplicit false

namespace HubToolbox.Rounding

open HubToolbox

/-! ### Values -/

section
variable {K : Type} [Field K] [LinearOrder K] [IsStrictOrderedRing K] (R S : Rounding K)

/-- A ratio as stored in the result. -/
def simVal (c n : ℕ) : XR K := S.up (R.ratio c n)
/-- One minus a ratio as stored in the result. -/
def distVal (c n : ℕ) : XR K := S.up (R.sub (.fin 1) (R.ratio c n))
/-- Either of them. -/
def val (metric : String) (c n : ℕ) : XR K := if metric = "similarity" then R.simVal S c n else R.distVal S c n

theorem up_unit {x : K} (h0 : 0 ≤ x) (h1 : x ≤ 1) : ∃ y, S.up (.fin x) = .fin y ∧ 0 ≤ y ∧ y ≤ 1 := unit h0 h1

variable {R S}

theorem ratio_eq {c n : ℕ} (hc : c ≤ n) (hn : R.rnd (n : K) = .fin n) :
    ∃ z : K, R.rnd (c : K) = .fin z ∧ 0 ≤ z ∧ z ≤ n := by
  have h1 := R.mono (c : K) n (by exact_mod_cast hc)
  have h0 := nonneg (R := R) (x := (c : K)) (by positivity)
  rw [hn] at h1
  cases h : R.rnd (c : K) with
  | fin z => rw [h] at h0 h1; exact ⟨z, rfl, h0, h1⟩
  | ninf => rw [h] at h0; simp at h0
  | pinf => rw [h] at h1; simp at h1
  | nan => rw [h] at h1; simp at h1

theorem ratio_unit {c n : ℕ} (hc : c ≤ n) (h0 : 0 < n) (hn : R.rnd (n : K) = .fin n) :
    ∃ y, R.ratio c n = .fin y ∧ 0 ≤ y ∧ y ≤ 1 := by
  obtain ⟨z, hz, hz0, hzn⟩ := ratio_eq hc hn
  have hn0 : (0 : K) < n := by exact_mod_cast h0
  have : XR.div (R.ofNat c) (R.ofNat n) = (.fin (z / n) : XR K) := by
    unfold ofNat
    rw [hz, hn]
    simp only [XR.div, if_neg hn0.ne']
  unfold ratio div
  rw [this]
  exact up_unit R (div_nonneg hz0 hn0.le) ((div_le_one hn0).2 hzn)

theorem sub_one_unit {y : K} (h0 : 0 ≤ y) (h1 : y ≤ 1) :
    ∃ z, R.sub (.fin 1) (.fin y) = .fin z ∧ 0 ≤ z ∧ z ≤ 1 := by
  have : XR.sub (.fin 1) (.fin y) = (.fin (1 - y) : XR K) := by
    simp [XR.sub, XR.neg, XR.add, sub_eq_add_neg]
  unfold sub
  rw [this]
  exact up_unit R (by linarith) (by linarith)

theorem val_unit (metric : String) {c n : ℕ} (hc : c ≤ n) (h0 : 0 < n) (hn : R.rnd (n : K) = .fin n) :
    ∃ y, R.val S metric c n = .fin y ∧ 0 ≤ y ∧ y ≤ 1 := by
  obtain ⟨y, hy, y0, y1⟩ := ratio_unit hc h0 hn
  unfold val simVal distVal
  rw [hy]
  split
  · exact up_unit S y0 y1
  · obtain ⟨z, hz, z0, z1⟩ := sub_one_unit (R := R) y0 y1
    rw [hz]
    exact up_unit S z0 z1

theorem add_zero_up (a : XR K) : S.add (S.up a) (.fin 0) = S.up a := by
  unfold add
  rw [SNN.add_zero_right]
  exact float_up a

theorem zero_add_up (a : XR K) : S.add (.fin 0) (S.up a) = S.up a := by
  unfold add
  rw [SNN.add_zero_left]
  exact float_up a
end

/-! ### IEEE arithmetic -/

end HubToolbox.Rounding

namespace HubToolbox.Ieee

section
variable {K : Type} [Field K] [LinearOrder K] [IsStrictOrderedRing K] [FloorRing K] (F G : Ieee)

theorem spacing_unit {x : K} (h0 : 0 ≤ x) (h1 : x ≤ 1) : F.spacing x ≤ -((F.p : ℤ) - 1) := by
  unfold spacing
  have hl : Int.log 2 |x| ≤ 0 := by
    rw [abs_of_nonneg h0]
    rcases h0.eq_or_lt with rfl | h0
    · simp
    · have := Int.log_mono_right (b := 2) h0 h1
      simpa using this
  have := max_le hl F.emin_le
  omega

/-- The rounding error in the unit interval. -/
theorem round_unit {x : K} (h0 : 0 ≤ x) (h1 : x ≤ 1) :
    ∃ y, F.round x = .fin y ∧ 0 ≤ y ∧ y ≤ 1 ∧ |y - x| ≤ 2 ^ (-(F.p : ℤ)) := by
  obtain ⟨y, hy, y0, y1⟩ := Rounding.unit (R := F.rounding K) h0 h1
  have hy : F.round x = .fin y := hy
  refine ⟨y, hy, y0, y1, ?_⟩
  have e : y = F.nearest x := by
    unfold round at hy
    split_ifs at hy
    injection hy with hy; exact hy.symm
  rw [e]
  refine (abs_nearest_sub F x).trans ?_
  have := zpow_le_zpow_right₀ (one_le_two (α := K)) (spacing_unit F h0 h1)
  have e2 : (2 : K) ^ (-(F.p : ℤ)) = 2 ^ (-((F.p : ℤ) - 1)) / 2 := by
    rw [show -((F.p : ℤ) - 1) = -(F.p : ℤ) + 1 by ring, zpow_add₀ two_ne_zero]
    simp
  rw [e2]
  linarith

/-- Integers of at most `p` digits are floats. -/
theorem round_natCast {n : ℕ} (hn : n ≤ 2 ^ F.p) (hp : F.p ≤ F.emax) : F.round (n : K) = .fin n := by
  have h := nearest_rep (K := K) F (m := n) (t := 0) (by
    rw [abs_of_nonneg (by positivity)]; exact_mod_cast hn) (by have := F.emin_le; have := F.p_pos; omega)
  simp only [zpow_zero, mul_one, Int.cast_natCast] at h
  rw [round_of_lt] <;> rw [h]
  rw [abs_of_nonneg (by positivity)]
  have h1 : (n : K) ≤ 2 ^ (F.p : ℤ) := by rw [zpow_natCast]; exact_mod_cast hn
  exact h1.trans_lt (zpow_lt_zpow_right₀ one_lt_two (by omega))

/-- Ratios of small integers are computed with an error below `2 ^ -p`. -/
theorem ratio_error {c n : ℕ} (hc : c ≤ n) (h0 : 0 < n) (hn : n ≤ 2 ^ F.p) (hp : F.p ≤ F.emax) :
    ∃ y : K, (F.rounding K).ratio c n = .fin y ∧ 0 ≤ y ∧ y ≤ 1 ∧ |y - c / n| ≤ 2 ^ (-(F.p : ℤ)) := by
  have hn0 : (0 : K) < n := by exact_mod_cast h0
  have : XR.div ((F.rounding K).ofNat c) ((F.rounding K).ofNat n) = (.fin ((c : K) / n) : XR K) := by
    change XR.div (F.round (c : K)) (F.round (n : K)) = _
    rw [round_natCast F hn hp, round_natCast F (hc.trans hn) hp]
    simp only [XR.div, if_neg hn0.ne']
  unfold Rounding.ratio Rounding.div
  rw [this]
  exact round_unit F (by positivity) ((div_le_one hn0).2 (by exact_mod_cast hc))

theorem val_error (metric : String) {c n : ℕ} (hc : c ≤ n) (h0 : 0 < n) (hn : n ≤ 2 ^ F.p) (hp : F.p ≤ F.emax) :
    ∃ y : K, (F.rounding K).val (G.rounding K) metric c n = .fin y ∧
      |y - (if metric = "similarity" then (c : K) / n else 1 - c / n)| ≤ 2 * 2 ^ (-(F.p : ℤ)) + 2 ^ (-(G.p : ℤ)) := by
  obtain ⟨y, hy, y0, y1, ye⟩ := ratio_error (K := K) F hc h0 hn hp
  have hF : (0 : K) < 2 ^ (-(F.p : ℤ)) := zpow_pos' _
  unfold Rounding.val Rounding.simVal Rounding.distVal
  rw [hy]
  split_ifs with hm
  · obtain ⟨z, hz, -, -, ze⟩ := round_unit (K := K) G y0 y1
    refine ⟨z, hz, ?_⟩
    rw [abs_le] at ye ze ⊢
    constructor <;> linarith [ye.1, ye.2, ze.1, ze.2]
  · have e1 : XR.sub (.fin 1) (.fin y) = (.fin (1 - y) : XR K) := by
      simp [XR.sub, XR.neg, XR.add, sub_eq_add_neg]
    unfold Rounding.sub
    rw [e1]
    obtain ⟨z, hz, z0, z1, ze⟩ := round_unit (K := K) F (x := 1 - y) (by linarith) (by linarith)
    obtain ⟨u, hu, -, -, ue⟩ := round_unit (K := K) G z0 z1
    refine ⟨u, ?_, ?_⟩
    · rw [show (F.rounding K).up (.fin (1 - y)) = (.fin z : XR K) from hz]; exact hu
    · rw [abs_le] at ye ze ue ⊢
      constructor <;> linarith [ye.1, ye.2, ze.1, ze.2, ue.1, ue.2]

/-- The number of objects is small enough for the two formats. -/
structure Small (n : ℕ) : Prop where
  pos : 0 < n
  left : n < 2 ^ (F.p - 3)
  right : n < 2 ^ (G.p - 3)
  range : F.p ≤ F.emax

variable {F G}

theorem small_gap {n : ℕ} (h : Small F G n) : (4 : K) * 2 ^ (-(F.p : ℤ)) + 4 * 2 ^ (-(G.p : ℤ)) < 1 / n := by
  have h0 : (0 : K) < n := by exact_mod_cast h.pos
  have key : ∀ p : ℕ, n < 2 ^ (p - 3) → (8 : K) * 2 ^ (-(p : ℤ)) < 1 / n := by
    intro p hp
    have h3 : 3 ≤ p := by
      by_contra h'
      have : p - 3 = 0 := by omega
      rw [this] at hp
      have := h.pos
      omega
    have hpK : (n : K) < 2 ^ (p - 3) := by exact_mod_cast hp
    have e : (8 : K) * 2 ^ (-(p : ℤ)) = 1 / 2 ^ (p - 3) := by
      obtain ⟨q, rfl⟩ := Nat.exists_eq_add_of_le h3
      rw [zpow_neg, zpow_natCast, Nat.add_sub_cancel_left, pow_add]
      have : (2 : K) ^ q ≠ 0 := by positivity
      field_simp
      norm_num
    rw [e]
    exact one_div_lt_one_div_of_lt h0 hpK
  have a := key F.p h.left
  have b := key G.p h.right
  linarith

/-- Different counts yield different values, in the right order. -/
theorem val_lt_iff (metric : String) {n : ℕ} (h : Small F G n) {c c' : ℕ} (hc : c ≤ n) (hc' : c' ≤ n) :
    (F.rounding K).val (G.rounding K) metric c n < (F.rounding K).val (G.rounding K) metric c' n ↔
      if metric = "similarity" then c < c' else c' < c := by
  have hgap := small_gap (K := K) h
  have hF : (0 : K) < 2 ^ (-(F.p : ℤ)) := zpow_pos' _
  have hG : (0 : K) < 2 ^ (-(G.p : ℤ)) := zpow_pos' _
  have h0 : (0 : K) < n := by exact_mod_cast h.pos
  have hn : n ≤ 2 ^ F.p := h.left.le.trans (Nat.pow_le_pow_right (by norm_num) (by omega))
  have step : ∀ a b : ℕ, a < b → (a : K) / n + 1 / n ≤ b / n := by
    intro a b hab
    rw [← add_div]
    apply div_le_div_of_nonneg_right _ h0.le
    exact_mod_cast hab
  obtain ⟨y, hy, ye⟩ := val_error (K := K) F G metric hc h.pos hn h.range
  obtain ⟨z, hz, ze⟩ := val_error (K := K) F G metric hc' h.pos hn h.range
  rw [hy, hz, XR.fin_lt_fin]
  split_ifs at ye ze ⊢ with hm
  · rw [abs_le] at ye ze
    rcases lt_trichotomy c c' with hcc | rfl | hcc
    · have := step _ _ hcc
      exact ⟨fun _ => hcc, fun _ => by linarith [ye.1, ye.2, ze.1, ze.2]⟩
    · have : y = z := by rw [hy] at hz; injection hz
      exact ⟨fun h => absurd this h.ne, fun h => absurd h (lt_irrefl _)⟩
    · have := step _ _ hcc
      exact ⟨fun h => by exfalso; linarith [ye.1, ye.2, ze.1, ze.2], fun h => absurd h hcc.not_gt⟩
  · rw [abs_le] at ye ze
    rcases lt_trichotomy c c' with hcc | rfl | hcc
    · have := step _ _ hcc
      exact ⟨fun h => by exfalso; linarith [ye.1, ye.2, ze.1, ze.2], fun h => absurd h hcc.not_gt⟩
    · have : y = z := by rw [hy] at hz; injection hz
      exact ⟨fun h => absurd this h.ne, fun h => absurd h (lt_irrefl _)⟩
    · have := step _ _ hcc
      exact ⟨fun _ => hcc, fun _ => by linarith [ye.1, ye.2, ze.1, ze.2]⟩

end
end HubToolbox.Ieee
