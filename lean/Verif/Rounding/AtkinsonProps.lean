import Verif.Rounding.Atkinson
import Verif.HubClass.Neighbours

/-!
# C285: the Atkinson index of class Hubness in double precision
-/

set_option autoImplicit false

namespace HubToolbox.Rounding

open HubToolbox Ieee

/-- The nearest float of a number well away from the midpoints. -/
theorem round_near {x : ℝ} {e z : ℤ} (h0 : (2 : ℝ) ^ e ≤ x) (h1 : x < 2 ^ (e + 1)) (hz : |x - z * 2 ^ (e - 52)| < 2 ^ (e - 53)) (hzb : |z| ≤ 2 ^ 53)
    (he : -1022 ≤ e) (he' : e ≤ 1000) : double.round x = .fin (z * 2 ^ (e - 52)) := by
  have hx : 0 < x := lt_of_lt_of_le (zpow_pos two_pos _) h0
  have hlog : Int.log 2 |x| = e := by
    rw [abs_of_pos hx]
    apply le_antisymm
    · have : Int.log 2 x < e + 1 := (Int.lt_zpow_iff_log_lt (by norm_num) hx).1 (by exact_mod_cast h1)
      omega
    · exact (Int.zpow_le_iff_le_log (by norm_num) hx).1 (by exact_mod_cast h0)
  have hsp : double.spacing x = e - 52 := by
    unfold Ieee.spacing
    rw [hlog, show double.emin = -1022 from rfl, show double.p = 53 from rfl]
    push_cast
    omega
  have hp : (0 : ℝ) < 2 ^ (e - 52) := zpow_pos two_pos _
  have hhalf : (2 : ℝ) ^ (e - 53) = 1 / 2 * 2 ^ (e - 52) := by
    rw [show e - 52 = (e - 53) + 1 by ring, zpow_add₀ two_ne_zero]
    norm_num
    ring
  have hq : even (x / 2 ^ (e - 52)) = z := by
    have h2 := abs_even_sub (x / 2 ^ (e - 52))
    have h3 : |x / 2 ^ (e - 52) - z| < 1 / 2 := by
      have : x / 2 ^ (e - 52) - z = (x - z * 2 ^ (e - 52)) / 2 ^ (e - 52) := by
        field_simp
      rw [this, abs_div, abs_of_pos hp, div_lt_iff₀ hp, ← hhalf]
      exact hz
    have h4 : |((even (x / 2 ^ (e - 52)) - z : ℤ) : ℝ)| < 1 := by
      push_cast
      have h5 := abs_le.1 h2
      have h6 := abs_lt.1 h3
      rw [abs_lt]
      constructor <;> linarith
    have h7 : |even (x / 2 ^ (e - 52)) - z| < 1 := by exact_mod_cast h4
    have := Int.abs_lt_one_iff.1 h7
    omega
  have hn : double.nearest x = z * 2 ^ (e - 52) := by
    unfold Ieee.nearest
    rw [hsp, hq]
  have hr := Ieee.round_grid (K := ℝ) double (z := z) (t := e - 52) hzb (by
    rw [show double.emin = -1022 from rfl, show double.p = 53 from rfl]
    push_cast
    omega) (by
    rw [show double.emax = 1023 from rfl, show double.p = 53 from rfl]
    push_cast
    omega)
  have hid : double.nearest ((z : ℝ) * 2 ^ (e - 52)) = z * 2 ^ (e - 52) := Ieee.nearest_rep (K := ℝ) double hzb (by
    rw [show double.emin = -1022 from rfl, show double.p = 53 from rfl]
    push_cast
    omega)
  unfold Ieee.round at hr ⊢
  rw [hn]
  rwa [hid] at hr

/-- The nearest double of `√2`. -/
noncomputable def root2 : ℝ := 6369051672525773 / 2 ^ 52

theorem round_root2 : double.round ((4 : ℝ) ^ (1 / 4 : ℝ)) = .fin root2 := by
  have h0 : (0 : ℝ) ≤ (4 : ℝ) ^ (1 / 4 : ℝ) := by positivity
  have h4 : ((4 : ℝ) ^ (1 / 4 : ℝ)) ^ 4 = 4 := by
    rw [← Real.rpow_natCast, ← Real.rpow_mul (by norm_num)]
    norm_num
  generalize (4 : ℝ) ^ (1 / 4 : ℝ) = x at h0 h4
  have l : (2 * 6369051672525773 - 1 : ℝ) / 2 ^ 53 < x := lt_of_pow_lt_pow_left₀ 4 h0 (by rw [h4]; norm_num)
  have r : x < (2 * 6369051672525773 + 1 : ℝ) / 2 ^ 53 := lt_of_pow_lt_pow_left₀ 4 (by norm_num) (by rw [h4]; norm_num)
  have := round_near (x := x) (e := 0) (z := 6369051672525773) (by norm_num at l ⊢; linarith) (by norm_num at r ⊢; linarith) (by
    norm_num at l r ⊢
    rw [abs_lt]
    constructor <;> linarith) (by norm_num) (by norm_num) (by norm_num)
  rw [this]
  unfold root2
  norm_num

theorem round_root2_pow : double.round (root2 ^ (4 : ℝ)) = .fin (4 + 1 / 2 ^ 50) := by
  have e4 : root2 ^ (4 : ℝ) = root2 ^ 4 := by
    rw [← Real.rpow_natCast]
    norm_num
  rw [e4]
  have := round_near (x := root2 ^ 4) (e := 2) (z := 2 ^ 52 + 1) (by unfold root2; norm_num) (by unfold root2; norm_num) (by
    unfold root2
    norm_num) (by norm_num) (by norm_num) (by norm_num)
  rw [this]
  norm_num

/-- Powers rounded correctly. -/
structure AtkLib.Correct (L : AtkLib) : Prop where
  sum_some_order : ∀ l, (∀ a ∈ l, (double.rounding ℝ).Float a) → (double.rounding ℝ).Sums l (L.sum l)
  pow_round : ∀ x p : ℝ, 0 ≤ x → 0 < p → L.pow (.fin x) p = double.round (x ^ p)

theorem AtkLib.Correct.near {L : AtkLib} (h : L.Correct) : L.Near := by
  refine ⟨h.sum_some_order, ?_, ?_⟩
  · rw [h.pow_round 0 _ le_rfl (by norm_num), Real.zero_rpow (by norm_num)]
    exact (double.rounding ℝ).zero
  · intro x p h0 h1 hp
    have hx : 0 < x := lt_of_lt_of_le (zpow_pos two_pos _) h0
    have hu := u_pos
    have key : (1 / 2 ^ 121 : ℝ) ≤ x ^ p ∧ x ^ p ≤ 2 ^ 60 ∧ 0 < p := by
      rcases hp with rfl | ⟨rfl, h2⟩
      · refine ⟨?_, ?_, by norm_num⟩
        · have h3 := Real.rpow_le_rpow (zpow_nonneg zero_le_two _) h0 (by norm_num : (0 : ℝ) ≤ 1 / 4)
          refine le_trans ?_ h3
          have h4 : (1 / 2 ^ 30 : ℝ) = 2 ^ (-30 : ℤ) := by norm_num
          have h5 : (1 / 2 ^ 30 : ℝ) ≤ (1 / 2 ^ 30 : ℝ) ^ (1 / 4 : ℝ) := by
            have := Real.rpow_le_rpow_of_exponent_ge (x := 1 / 2 ^ 30) (by norm_num) (by norm_num) (show (1 / 4 : ℝ) ≤ 1 by norm_num)
            rwa [Real.rpow_one] at this
          rw [← h4]
          refine le_trans ?_ h5
          norm_num
        · have h3 := Real.rpow_le_rpow hx.le h1 (by norm_num : (0 : ℝ) ≤ 1 / 4)
          refine h3.trans ?_
          have := Real.rpow_le_rpow_of_exponent_le (x := 2 ^ (60 : ℤ)) (by norm_num) (show (1 / 4 : ℝ) ≤ 1 by norm_num)
          rw [Real.rpow_one] at this
          refine this.trans ?_
          norm_num
      · have e4 : x ^ (4 : ℝ) = x ^ 4 := by
          rw [← Real.rpow_natCast]
          norm_num
        rw [e4]
        refine ⟨?_, ?_, by norm_num⟩
        · have := pow_le_pow_left₀ (zpow_nonneg zero_le_two _) h0 4
          refine le_trans ?_ this
          norm_num
        · have := pow_le_pow_left₀ hx.le h2 4
          refine this.trans ?_
          norm_num
    obtain ⟨k1, k2, k3⟩ := key
    have hxp : 0 < x ^ p := lt_of_lt_of_le (by norm_num) k1
    obtain ⟨y, y1, y2, y3⟩ := double.round_rel (K := ℝ) (x := x ^ p) (Or.inr (by
      rw [abs_of_pos hxp]
      refine le_trans ?_ k1
      rw [one_div, ← zpow_natCast, ← zpow_neg]
      exact zpow_le_zpow_right₀ one_le_two (by decide))) (by
      rw [abs_of_pos hxp]
      exact small_emax k2)
    refine ⟨y, by rw [h.pow_round x p hx.le k3, y1], y2, ?_⟩
    rw [abs_of_pos hxp] at y3
    refine (show |y - x ^ p| ≤ u * x ^ p from y3).trans ?_
    have : 0 < u * x ^ p := by positivity
    linarith

/-- Multiples of small powers of two are floats. -/
theorem round_grid' (z t : ℤ) (hz : |z| ≤ 2 ^ 53) (ht : -1022 ≤ t) (ht' : t ≤ 900) : double.round ((z : ℝ) * 2 ^ t) = .fin ((z : ℝ) * 2 ^ t) := by
  refine Ieee.round_grid (K := ℝ) double hz ?_ ?_
  · rw [show double.emin = -1022 from rfl, show double.p = 53 from rfl]
    push_cast
    omega
  · rw [show double.emax = 1023 from rfl, show double.p = 53 from rfl]
    push_cast
    omega

/-- Two equal counts of four. -/
theorem atkinson_two_fours (L : AtkLib) (hL : L.Correct) : (double.rounding ℝ).atkinson L [4, 4] = .fin (-(1 / 2 ^ 52)) := by
  have n4 : (double.rounding ℝ).ofNat 4 = .fin 4 := ofNat_exact (by norm_num)
  have n2 : (double.rounding ℝ).ofNat 2 = .fin 2 := ofNat_exact (by norm_num)
  have hroot : L.pow (.fin 4) (1 / 4) = .fin root2 := by rw [hL.pow_round 4 _ (by norm_num) (by norm_num), round_root2]
  have f2 : double.round root2 = .fin root2 := by
    have := round_grid' 6369051672525773 (-52) (by norm_num) (by norm_num) (by norm_num)
    norm_num at this
    unfold root2
    norm_num
    exact this
  have s1 : L.sum [.fin root2, .fin root2] = .fin (2 * root2) := by
    rw [sums_pair (hL.sum_some_order _ (by
      intro a ha
      simp only [List.mem_cons, List.not_mem_nil, or_false, or_self] at ha
      rw [ha]
      exact f2))]
    have := round_grid' 6369051672525773 (-51) (by norm_num) (by norm_num) (by norm_num)
    have e : root2 + root2 = ((6369051672525773 : ℤ) : ℝ) * 2 ^ (-51 : ℤ) := by
      unfold root2
      norm_num
    have e' : 2 * root2 = ((6369051672525773 : ℤ) : ℝ) * 2 ^ (-51 : ℤ) := by
      unfold root2
      norm_num
    rw [e', ← this, ← e]
    rfl
  have s2 : L.sum [.fin 4, .fin 4] = .fin 8 := by
    rw [sums_pair (hL.sum_some_order _ (by
      intro a ha
      simp only [List.mem_cons, List.not_mem_nil, or_false, or_self] at ha
      rw [ha]
      exact n4))]
    have := round_grid' 8 0 (by norm_num) (by norm_num) (by norm_num)
    norm_num at this
    rw [← this, show (8 : ℝ) = 4 + 4 by norm_num]
    rfl
  have d1 : (double.rounding ℝ).div (.fin (2 * root2)) (.fin 2) = .fin root2 := by
    unfold Rounding.div
    rw [div_fin _ two_ne_zero, mul_div_cancel_left₀ _ two_ne_zero]
    exact f2
  have d2 : (double.rounding ℝ).div (.fin 8) (.fin 2) = .fin 4 := by
    unfold Rounding.div
    rw [div_fin _ two_ne_zero, show (8 : ℝ) / 2 = 4 by norm_num]
    exact n4
  have d3 : (double.rounding ℝ).div (.fin 1) (.fin 4) = .fin (1 / 4) := by
    unfold Rounding.div
    rw [div_fin _ four_ne_zero]
    have := round_grid' 1 (-2) (by norm_num) (by norm_num) (by norm_num)
    norm_num at this ⊢
    exact this
  have p1 : L.pow (.fin root2) 4 = .fin (4 + 1 / 2 ^ 50) := by
    rw [hL.pow_round _ _ (by unfold root2; norm_num) (by norm_num), round_root2_pow]
  have m1 : (double.rounding ℝ).mul (.fin (1 / 4)) (.fin (4 + 1 / 2 ^ 50)) = .fin (1 + 1 / 2 ^ 52) := by
    have := round_grid' (2 ^ 52 + 1) (-52) (by norm_num) (by norm_num) (by norm_num)
    have e : (((2 ^ 52 + 1 : ℤ)) : ℝ) * 2 ^ (-52 : ℤ) = 1 / 4 * (4 + 1 / 2 ^ 50) := by norm_num
    have e' : (1 : ℝ) + 1 / 2 ^ 52 = 1 / 4 * (4 + 1 / 2 ^ 50) := by norm_num
    rw [e] at this
    rw [e', ← this]
    rfl
  have r1 : (double.rounding ℝ).sub (.fin 1) (.fin (1 + 1 / 2 ^ 52)) = .fin (-(1 / 2 ^ 52)) := by
    have := round_grid' (-1) (-52) (by norm_num) (by norm_num) (by norm_num)
    have e : (((-1 : ℤ)) : ℝ) * 2 ^ (-52 : ℤ) = 1 - (1 + 1 / 2 ^ 52) := by norm_num
    have e' : -(1 / 2 ^ 52 : ℝ) = 1 - (1 + 1 / 2 ^ 52) := by norm_num
    rw [e] at this
    rw [e', ← this]
    rfl
  unfold Rounding.atkinson
  simp only [List.map_cons, List.map_nil, List.length_cons, List.length_nil, zero_add, Nat.reduceAdd, n4, n2, hroot, s1, s2, d1, d2, d3, p1, m1, r1]

end HubToolbox.Rounding

namespace HubToolbox.HubClass

open HubToolbox Ieee Rounding

section
variable {K : Type} [Field K] [LinearOrder K] (w : World K) (P : Params ℝ) (k : ℕ) (hP : P.k = some (k : ℤ)) (hk : 1 ≤ k) (bs : ℕ)
  (shuffle hasSelf : Bool) (X : Data K) (hX : X.Canonical) (hn : 0 < X.nTest) (fit : Fit ℝ) (h : fitTransform w P bs shuffle hasSelf X = .ok fit)
include hP hk hX hn h

/-- **C285** (what holds): `Hubness.fit_transform` computes the Atkinson index in double precision within `(10 n + 32) · 2⁻⁵³` of the documented value for
`n` training objects, whatever the order of the sums, and not above one. Missing: it need not be zero, and may be negative, if all objects occur equally
often (`C285_violated`). -/
theorem C285_partial (L : AtkLib) (hL : L.Near) (hm : X.nTrain ≤ 2 ^ 25) (hp : 2 * X.nTrain * (X.nTest * k) ≤ 2 ^ 53) :
    ∃ q : ℝ, (double.rounding ℝ).atkinson L fit.kOcc = .fin q ∧ q ≤ 1 ∧ |q - fit.atkinson| ≤ (10 * (X.nTrain : ℝ) + 32) * (1 / 2 ^ 53) := by
  obtain ⟨c1, c2, c3, c4⟩ := fit_counts w P k hP hk bs shuffle hasSelf X hX hn fit h
  have hsz := fit_sizes w P k hP hk bs shuffle hasSelf X hX hn fit h hm hp
  have g1 : fit.atkinson = HubClass.atkinson fit.kOcc := by rw [c4]; rfl
  obtain ⟨q, q1, q2, q3⟩ := atkinson_near hsz L hL
  refine ⟨q, q1, q2, ?_⟩
  rw [g1]
  refine q3.trans_eq ?_
  rw [c1, u_eq]
  norm_num

end

/-- **C285** (violated): four objects asking for the two nearest of two training objects find both. All occurrences are equal, and the documented index is
zero; with correctly rounded powers, the reported index is negative. -/
theorem C285_violated {K : Type} [Field K] [LinearOrder K] (w : World K) (P : Params ℝ) (hP : P.k = some 2) (bs : ℕ)
    (shuffle hasSelf : Bool) (X : Data K) (hX : X.Canonical) (hn : X.nTest = 4) (hm : X.nTrain = 2) (fit : Fit ℝ)
    (h : fitTransform w P bs shuffle hasSelf X = .ok fit) (L : AtkLib) (hL : L.Correct) :
    fit.atkinson = 0 ∧ (double.rounding ℝ).atkinson L fit.kOcc = .fin (-(1 / 2 ^ 52)) := by
  obtain ⟨rows, hinj, hd⟩ := C09_statistics w P 2 hP (by norm_num) bs shuffle hasSelf X hX (by omega) fit h
  have hocc : fit.kOcc = [4, 4] := by
    rw [hd.kOcc]
    have hall : ∀ j : Fin X.nTrain, Spec.occurrences (asLists rows) j = 4 := by
      intro j
      unfold Spec.occurrences
      rw [Finset.filter_true_of_mem]
      · rw [Finset.card_univ, Fintype.card_fin, hn]
      · intro i _
        have hb : Function.Bijective (rows i) := (Fintype.bijective_iff_injective_and_card _).2 ⟨hinj i, by simp [hm]⟩
        obtain ⟨c, hc⟩ := hb.2 j
        unfold asLists
        rw [List.mem_map]
        exact ⟨j, (List.mem_ofFn).2 ⟨c, hc⟩, rfl⟩
    have : (fun j : Fin X.nTrain => Spec.occurrences (asLists rows) j) = fun _ => 4 := funext hall
    rw [this, List.ofFn_const, hm]
    rfl
  refine ⟨?_, by rw [hocc]; exact atkinson_two_fours L hL⟩
  refine (C61_atkinson w P 2 hP (by norm_num) bs shuffle hasSelf X hX (by omega) fit h).2.2.2 ?_
  rw [hocc]
  intro x hx y hy
  simp only [List.mem_cons, List.not_mem_nil, or_false, or_self] at hx hy
  rw [hx, hy]

end HubToolbox.HubClass

/-! ### Instances -/

namespace HubToolbox.Rounding

open HubToolbox Ieee HubClass

/-- Sums from left to right, and correctly rounded powers. -/
noncomputable def AtkLib.rounded : AtkLib where
  sum l := l.foldl (double.rounding ℝ).add (.fin 0)
  pow x p := match x with
    | .fin x => double.round (x ^ p)
    | y => y

theorem AtkLib.rounded_correct : AtkLib.rounded.Correct := ⟨fun l hl => sums_foldl _ l hl, fun _ _ _ _ => rfl⟩

/-- Four objects on a line, and two training objects. -/
theorem atk_fit (w : World ℚ) : ∃ fit : Fit ℝ, fitTransform w (⟨some 2, 2, "euclidean", 1⟩ : Params ℝ) 64 true false
    (.vectors 4 1 (fun i _ => (i.val : ℚ)) (some ⟨2, 1, fun i _ => 5 * (i.val : ℚ)⟩)) = .ok fit := by
  obtain ⟨fit, rows, h, -⟩ := C64_given_Y w (⟨some 2, 2, "euclidean", 1⟩ : Params ℝ) 2 rfl rfl 64 (by decide) true false 4 2 1
    (fun i _ => (i.val : ℚ)) (fun i _ => 5 * (i.val : ℚ)) (by decide)
  exact ⟨fit, h⟩

example (w : World ℚ) := C285_violated w _ rfl 64 true false _ (by simp [Data.Canonical]) rfl rfl _ (atk_fit w).choose_spec _ AtkLib.rounded_correct

example (w : World ℚ) := C285_partial w _ 2 rfl (by norm_num) 64 true false _ (by simp [Data.Canonical]) (by decide) _ (atk_fit w).choose_spec _
  AtkLib.rounded_correct.near (by decide) (by decide)

end HubToolbox.Rounding
